import Verif.Shell.Json
/-!
# Model of the batch-system launchers — cluster/launcher.py:1724-2430

`BatchSystemLauncher` and its subclasses for PBS, Slurm, SGE, LSF and HTCondor, each for a controller and for a set of engines: the batch script, the submit, delete and signal commands, the job id.
Texts are lists of code points. The batch system is outside: what the commands print, and whether they fail, is arbitrary.
Not modelled: logging, `get_output`, `WindowsHPCLauncher`; the change of a regular expression or of a default template by configuration (all other configuration is, except `batch_file_name`); `\w` and `\d` on non-ASCII characters; in templates, fields that are not names of the context (`EvalFormatter` evaluates Python expressions) count as errors.
-/
namespace IPP.Batch
open IPP.Shell (Str)

/-! ## regular expressions (those that occur) -/

/-- a regular expression; `one p`, `plus p`, `opt p`: a character, one or more (greedy), an optional one with `p`; `eol`: `$` — `re`, as used by launcher.py:1769-1811 -/
inductive Re where
  | eps
  | one (p : Nat → Bool)
  | plus (p : Nat → Bool)
  | opt (p : Nat → Bool)
  | alt (a b : Re)
  | seq (a b : Re)
  | eol

/-- what `p+` leaves over, longest match first — `re`, as used by launcher.py:1769-1811 -/
def plusEnds (p : Nat → Bool) : Str → List Str
  | [] => []
  | c :: r => if p c then plusEnds p r ++ [r] else []

/-- the rests of the text after the matches at its beginning, in the order in which they are tried — `re`, as used by launcher.py:1769-1811 -/
def Re.ends : Re → Str → List Str
  | .eps, s => [s]
  | .one p, s => match s with
    | [] => []
    | c :: r => if p c then [r] else []
  | .plus p, s => plusEnds p s
  | .opt p, s => match s with
    | [] => [s]
    | c :: r => if p c then [r, s] else [s]
  | .alt a b, s => a.ends s ++ b.ends s
  | .seq a b, s => (a.ends s).flatMap b.ends
  | .eol, s => if s = [] ∨ s = [10] then [s] else []

/-- `regexp.search(text) is not None` — launcher.py:1922, 1929, 1940 -/
def Re.found (e : Re) : Str → Bool
  | [] => !(e.ends []).isEmpty
  | c :: r => !(e.ends (c :: r)).isEmpty || e.found r

/-- `[0-9]`, `\d` on ASCII — launcher.py:2035 -/
def isDigit (c : Nat) : Bool := 48 ≤ c && c ≤ 57

/-- `\w` on ASCII — launcher.py:2042 -/
def isWord (c : Nat) : Bool := isDigit c || (65 ≤ c && c ≤ 90) || (97 ≤ c && c ≤ 122) || c == 95

/-- `\s` on ASCII — launcher.py:2270 -/
def isSpace (c : Nat) : Bool := (9 ≤ c && c ≤ 13) || c == 32

/-- a literal text as a regular expression — launcher.py:2042 -/
def lit : Str → Re
  | [] => .eps
  | c :: r => .seq (.one (· == c)) (lit r)

/-- `[\w\d\-\$]` — launcher.py:2042 -/
def arrChar (c : Nat) : Bool := isWord c || c == 45 || c == 36

/-- `\W+` — launcher.py:2042 -/
def nonWord : Re := .plus fun c => !isWord c

/-- `\W+\$?\w+` — launcher.py:2044 -/
def valueRe : Re := .seq nonWord (.seq (.opt (· == 36)) (.plus isWord))

/-- a regular expression for the job id: a group, what follows it, and whether `job_id_regexp_group` is that group (otherwise it is 0: all) — launcher.py:1769-1780 -/
structure JobRe where
  grp : Re
  post : Re
  inner : Bool

/-- the first way to match the group and what follows it: the rests after the group and after all — `Match`, launcher.py:1880-1887 -/
def JobRe.first (j : JobRe) : List Str → Option (Str × Str)
  | [] => none
  | r :: rs => match j.post.ends r with
    | e :: _ => some (r, e)
    | [] => j.first rs

/-- `m = regexp.search(output); m.group(g)` — launcher.py:1880-1887 -/
def JobRe.search (j : JobRe) (s : Str) : Option Str :=
  match j.first (j.grp.ends s) with
  | some (r, e) => some (s.take (s.length - (if j.inner then r else e).length))
  | none => match s with
    | [] => none
    | _ :: t => j.search t

/-! ## templates -/

/-- a part of a parsed template — `string.Formatter.parse`, launcher.py:1913 -/
inductive Seg where
  | txt (s : Str)
  | fld (name : Str)
  deriving DecidableEq, Repr

/-- put a character in front — `string.Formatter.parse`, launcher.py:1913 -/
def consChar (c : Nat) : List Seg → List Seg
  | .txt s :: r => .txt (c :: s) :: r
  | r => .txt [c] :: r

/-- `Formatter.parse`; `f`: the name being read, in reverse, within braces — launcher.py:1913 -/
def parse : Option Str → Str → Option (List Seg)
  | none, [] => some []
  | none, 123 :: 123 :: r => (parse none r).map (consChar 123)
  | none, 125 :: 125 :: r => (parse none r).map (consChar 125)
  | none, 123 :: r => parse (some []) r
  | none, 125 :: _ => none
  | none, c :: r => (parse none r).map (consChar c)
  | some _, [] => none
  | some f, 125 :: r => (parse none r).map (.fld f.reverse :: ·)
  | some _, 123 :: _ => none
  | some f, c :: r => parse (some (c :: f)) r

/-- a dict with text keys — launcher.py:1817 -/
abbrev Dict := List (Str × Str)

/-- `d.get(k)` — launcher.py:1817 -/
def get (d : Dict) (k : Str) : Option Str := (d.find? (·.1 = k)).map (·.2)

/-- `d[k] = v` — launcher.py:1853-1855 -/
def put (d : Dict) (k v : Str) : Dict := (k, v) :: d.filter (·.1 ≠ k)

/-- `d.update(e)` — launcher.py:1908-1912 -/
def update (d e : Dict) : Dict := e.foldl (fun d p => put d p.1 p.2) d

/-- fill in the values; `none`: NameError — launcher.py:1913 -/
def render (ns : Dict) : List Seg → Option Str
  | [] => some []
  | .txt s :: r => (render ns r).map (s ++ ·)
  | .fld f :: r => do
    let v ← get ns f
    let t ← render ns r
    return v ++ t

/-- `self.formatter.format(template, **ns)` — launcher.py:1913 -/
def format (t : Str) (ns : Dict) : Option Str := (parse none t).bind (render ns)

/-- `text.split('\n', 1)`, which must give two parts — launcher.py:1935, 1942 -/
def splitLine : Str → Option (Str × Str)
  | [] => none
  | c :: r => if c = 10 then some ([], r) else (splitLine r).map fun p => (c :: p.1, p.2)

/-- `'\n'.join(parts)` — launcher.py:1936, 1943 -/
def joinNl : List Str → Str
  | [] => []
  | [s] => s
  | s :: r => s ++ 10 :: joinNl r

/-! ## quoting -/

/-- the characters that `shlex.quote` does not quote: `[a-zA-Z0-9@%_\-+=:,./]` — util.py:712-714 -/
def safe (c : Nat) : Bool := isWord c || l!"@%+=:,./-".contains c

/-- `shlex.quote` — util.py:712-714 -/
def quote (s : Str) : Str :=
  if s = [] then l!"''"
  else if s.all safe then s
  else 39 :: s.flatMap (fun c => if c = 39 then l!"'\"'\"'" else [c]) ++ [39]

/-- `shlex_join` — util.py:712-714 -/
def shlexJoin : List Str → Str
  | [] => []
  | [w] => quote w
  | w :: r => quote w ++ 32 :: shlexJoin r

/-! ## the classes -/

/-- the batch systems — launcher.py:2027, 2083, 2211, 2253, 2333 -/
inductive Sys where
  | pbs | slurm | sge | lsf | condor
  deriving DecidableEq, Repr

/-- what is launched — launcher.py:1988, 2009 -/
inductive Role where
  | controller | engines
  deriving DecidableEq, Repr


/-- `job_array_regexp` — launcher.py:2042, 2133, 2214, 2270, 2372 -/
def arrayRe : Sys → Re
  | .pbs => .seq (lit l!"#PBS") (.seq nonWord (.seq (lit l!"-t") (.seq nonWord (.plus arrChar))))
  | .slurm => .seq (lit l!"#SBATCH") (.seq nonWord (.seq (.alt (lit l!"--ntasks") (lit l!"-n")) (.plus arrChar)))
  | .sge => .seq (lit l!"#$") (.seq nonWord (lit l!"-t"))
  | .lsf => .seq (lit l!"#BSUB") (.seq (.plus isSpace) (.seq (lit l!"-") (.seq (.plus (· == 74)) (.seq (.plus isWord) (.seq (lit l!"[") (.seq (.plus isDigit) (.seq (lit l!"-") (.seq (.plus isDigit) (lit l!"]")))))))))
  | .condor => .seq (lit l!"queue") (.seq nonWord (lit l!"$"))

/-- `job_array_template` — launcher.py:2043, 2134, 2215, 2271, 2373 -/
def arrayT : Sys → Str
  | .pbs => l!"#PBS -t 1-{n}"
  | .slurm => l!"#SBATCH --ntasks={n}"
  | .sge => l!"#$ -t 1-{n}"
  | .lsf => l!"#BSUB -J ipengine[1-{n}]"
  | .condor => l!"queue {n}"

/-- `queue_regexp` — launcher.py:1806, 2044, 2136, 2216, 2272 -/
def queueRe : Sys → Re
  | .pbs => .seq (lit l!"#PBS") (.seq nonWord (.seq (lit l!"-q") valueRe))
  | .slurm => .seq (lit l!"#SBATCH") (.seq nonWord (.seq (.alt (lit l!"--partition") (lit l!"-p")) valueRe))
  | .sge => .seq (lit l!"#$") (.seq nonWord (.seq (lit l!"-q") valueRe))
  | .lsf => .seq (lit l!"#BSUB") (.seq (.plus isSpace) (.seq (lit l!"-q") (.seq (.plus isSpace) (.plus isWord))))
  | .condor => .eps

/-- `queue_template` — launcher.py:1807, 2045, 2137, 2217, 2273 -/
def queueT : Sys → Str
  | .pbs => l!"#PBS -q {queue}"
  | .slurm => l!"#SBATCH --partition={queue}"
  | .sge => l!"#$ -q {queue}"
  | .lsf => l!"#BSUB -q {queue}"
  | .condor => []

/-- `output_regexp`; SGE inherits it from PBS — launcher.py:1810, 2046, 2148, 2211, 2274 -/
def outRe : Sys → Re
  | .pbs | .sge => .seq (lit l!"#PBS") (.seq nonWord (.seq (lit l!"-o") valueRe))
  | .slurm => .seq (lit l!"#SBATCH") (.seq nonWord (.seq (lit l!"--output") valueRe))
  | .lsf => .seq (lit l!"#BSUB") (.seq (.plus isSpace) (.seq (lit l!"-o") (.seq (.opt (· == 111)) (.seq (.plus isSpace) (.plus isWord)))))
  | .condor => .eps

/-- `output_template`; SGE inherits it from PBS — launcher.py:1811, 2047, 2149, 2211, 2275 -/
def outT : Sys → Str
  | .pbs | .sge => l!"#PBS -j oe\n#PBS -o {output_file}"
  | .slurm => l!"#SBATCH --output={output_file}"
  | .lsf => l!"#BSUB -o {output_file}\n#BSUB -e {output_file}\n"
  | .condor => []

/-- `default_template` — launcher.py:2056, 2071, 2181, 2199, 2226, 2241, 2302, 2317, 2399, 2416 -/
def defaultT : Sys → Role → Str
  | .pbs, .controller => l!"#!/bin/sh\n#PBS -V\n#PBS -N ipcontroller\n{program_and_args}\n"
  | .pbs, .engines => l!"#!/bin/sh\n#PBS -V\n#PBS -N ipengine\n{program_and_args}\n"
  | .slurm, .controller => l!"#!/bin/sh\n#SBATCH --export=ALL\n#SBATCH --job-name=ipcontroller-{cluster_id}\n#SBATCH --ntasks=1\n{program_and_args}\n"
  | .slurm, .engines => l!"#!/bin/sh\n#SBATCH --export=ALL\n#SBATCH --job-name=ipengine-{cluster_id}\nsrun {program_and_args}\n"
  | .sge, .controller => l!"#$ -V\n#$ -S /bin/sh\n#$ -N ipcontroller\n{program_and_args}\n"
  | .sge, .engines => l!"#$ -V\n#$ -S /bin/sh\n#$ -N ipengine\n{program_and_args}\n"
  | .lsf, .controller => l!"#!/bin/sh\n    #BSUB -env all\n    #BSUB -J ipcontroller-{cluster_id}\n    {program_and_args}\n    "
  | .lsf, .engines => l!"#!/bin/sh\n    #BSUB -J ipengine-{cluster_id}\n    #BSUB -env all\n    {program_and_args}\n    "
  | .condor, .controller => l!"\nuniverse        = vanilla\nexecutable      = ipcontroller\n# by default we expect a shared file system\ntransfer_executable = False\narguments       = {program_args}\n"
  | .condor, .engines => l!"\nuniverse        = vanilla\nexecutable      = ipengine\n# by default we expect a shared file system\ntransfer_executable = False\narguments       = \"{program_args}\"\n"

/-- `job_id_regexp`, `job_id_regexp_group` — launcher.py:2035, 2097, 2263, 2363-2370 -/
def jobRe : Sys → JobRe
  | .condor => { grp := .plus isDigit, post := .seq (lit l!".") .eol, inner := true }
  | _ => { grp := .plus isDigit, post := .eps, inner := false }

/-- `submit_command` — launcher.py:2030, 2086, 2256, 2355 -/
def submitCmd : Sys → List Str
  | .pbs | .sge => [l!"qsub"]
  | .slurm => [l!"sbatch"]
  | .lsf => [l!"bsub"]
  | .condor => [l!"condor_submit"]

/-- `delete_command` — launcher.py:2031, 2089, 2257, 2360 -/
def deleteCmd : Sys → List Str
  | .pbs | .sge => [l!"qdel"]
  | .slurm => [l!"scancel"]
  | .lsf => [l!"bkill"]
  | .condor => [l!"condor_rm"]

/-- `signal_command`; HTCondor inherits the default — launcher.py:1762-1766, 2032, 2092, 2260 -/
def signalCmd : Sys → List Str
  | .pbs | .sge => [l!"qsig", l!"-s"]
  | .slurm => [l!"scancel", l!"-s"]
  | .lsf => [l!"bkill", l!"-s"]
  | .condor => [l!""]

/-- `batch_file_name` — launcher.py:2053, 2068, 2176, 2194, 2223, 2238, 2299, 2314, 2394, 2413 -/
def fileName : Sys → Role → Str
  | .pbs, .controller => l!"pbs_controller"
  | .pbs, .engines => l!"pbs_engines"
  | .slurm, .controller => l!"slurm_controller.sbatch"
  | .slurm, .engines => l!"slurm_engine.sbatch"
  | .sge, .controller => l!"sge_controller"
  | .sge, .engines => l!"sge_engines"
  | .lsf, .controller => l!"lsf_controller"
  | .lsf, .engines => l!"lsf_engines"
  | .condor, .controller => l!"htcondor_controller"
  | .condor, .engines => l!"htcondor_engines"

/-! ## the insertions into the default template -/

/-- `if inserts: firstline, rest = …; template = '\n'.join([firstline] + inserts + [rest])` — launcher.py:1934-1936, 2168-2170 -/
def insertLines (ins : List Str) (t : Str) : Option Str :=
  if ins = [] then some t else (splitLine t).map fun p => joinNl (p.1 :: ins ++ [p.2])

/-- `_insert_options_in_script` of the base class; `q`, `o`: there is a queue, an output file — launcher.py:1919-1936 -/
def insertBase (s : Sys) (q o : Bool) (t : Str) : Option Str :=
  insertLines
    ((if q && !(queueRe s).found t then [queueT s] else []) ++
     (if o && outT s ≠ [] && !(outRe s).found t then [outT s] else [])) t

/-- `account_regexp` — launcher.py:2139 -/
def accountRe : Re := .seq (lit l!"#SBATCH") (.seq nonWord (.seq (.alt (lit l!"--account") (lit l!"-A")) valueRe))

/-- `qos_regexp` — launcher.py:2142 -/
def qosRe : Re := .seq (lit l!"#SBATCH") (.seq nonWord (.seq (lit l!"--qos") valueRe))

/-- `timelimit_regexp` — launcher.py:2145 -/
def timeRe : Re := .seq (lit l!"#SBATCH") (.seq nonWord (.seq (.alt (lit l!"--time") (lit l!"-t")) valueRe))

/-- `SlurmLauncher._insert_options_in_script`, after the base class; `a`, `k`, `w`: there is an account, a QoS, a time limit — launcher.py:2151-2170 -/
def insertSlurm (a k w : Bool) (t : Str) : Option Str :=
  insertLines
    ((if a && !accountRe.found t then [l!"#SBATCH --account={account}"] else []) ++
     (if k && !qosRe.found t then [l!"#SBATCH --qos={qos}"] else []) ++
     (if w && !timeRe.found t then [l!"#SBATCH --time={timelimit}"] else [])) t

/-- `_insert_job_array_in_script` — launcher.py:1938-1943; HTCondor: 2375-2382 -/
def insertArray (s : Sys) (t : Str) : Option Str :=
  if (arrayRe s).found t then some t
  else if s = .condor then some (joinNl [t, arrayT s])
  else (splitLine t).map fun p => joinNl [p.1, arrayT s, p.2]

/-- the template when the user gives none — launcher.py:1901-1907 -/
def insertAll (s : Sys) (r : Role) (q o a k w : Bool) : Option Str := do
  let t ← insertBase s q o (defaultT s r)
  let t ← if s = .slurm then insertSlurm a k w t else some t
  insertArray s t

/-! ## launchers -/

/-- `state` — launcher.py:130 -/
inductive LState where
  | before | running | after
  deriving DecidableEq, Repr

/-- what the user configures — launcher.py:1741-1824, 2103-2113, 1988-2025 -/
structure Config where
  workDir : Str
  submit : List Str
  delete : List Str
  signal : List Str
  template : Str
  /-- the text of `batch_template_file`, if that is set -/
  templateFile : Option Str
  queue : Str
  outputFile : Str
  account : Str
  qos : Str
  timelimit : Str
  options : Str
  profileDir : Str
  clusterId : Str
  namesp : Dict
  environment : Dict
  program : List Str
  programArgs : List Str

/-- a launcher — launcher.py:1741-1866 -/
structure L where
  sys : Sys
  role : Role
  cfg : Config
  n : Nat
  queue : Str
  outputFile : Str
  profileDir : Str
  clusterId : Str
  namesp : Dict
  template : Str
  batchFile : Str
  context : Dict
  jobId : Str
  state : LState

/-- `str(n)` — launcher.py:1913 -/
def digits (n : Nat) : Str := (Nat.toDigits 10 n).map Char.toNat

/-- `context[change['name']] = change['new']`, called when the value is another one — launcher.py:1796-1798, 1853-1855, 2115-2129 -/
def ctxChange (c : Dict) (k old new : Str) : Dict := if old = new then c else put c k new

/-- `_context_default`, `_program_changed` and the observers of the Slurm options, which have been called if an option is not empty — launcher.py:1829-1843, 1847-1851, 2115-2129 -/
def initContext (s : Sys) (c : Config) : Dict :=
  let d : Dict := [(l!"n", l!"1"), (l!"queue", c.queue), (l!"profile_dir", c.profileDir), (l!"cluster_id", c.clusterId), (l!"output_file", c.outputFile)]
  let d := if s = .slurm then
      ctxChange (ctxChange (ctxChange (ctxChange d l!"account" [] c.account) l!"qos" [] c.qos) l!"timelimit" [] c.timelimit) l!"options" [] c.options
    else d
  put (put (put d l!"program" (shlexJoin c.program)) l!"program_args" (shlexJoin c.programArgs)) l!"program_and_args" (shlexJoin (c.program ++ c.programArgs))

/-- `os.path.join(work_dir, name)` — launcher.py:1865 -/
def pathJoin (d f : Str) : Str := if d = [] then f else if d.getLast? = some 47 then d ++ f else d ++ 47 :: f

/-- the constructor — launcher.py:1863-1867 -/
def init (s : Sys) (r : Role) (c : Config) : L :=
  { sys := s, role := r, cfg := c, n := 1, queue := c.queue, outputFile := c.outputFile, profileDir := c.profileDir, clusterId := c.clusterId, namesp := c.namesp, template := c.template
    batchFile := pathJoin c.workDir (fileName s r), context := initContext s c, jobId := [], state := .before }

/-- an effect outside — launcher.py:1869-1878, 1915-1917, 2277-2293 -/
inductive Ev where
  /-- the batch script is written (and made executable) -/
  | write (path text : Str)
  /-- a command is run; `none`: with the environment of this process, otherwise that one updated with these variables -/
  | run (argv : List Str) (env : Option Dict)
  /-- a command is run by the shell, with the environment of this process -/
  | shell (cmd : Str)
  /-- `notify_stop`: the callbacks are called -/
  | stopped (jobId : Str)
  deriving DecidableEq

/-- an exception — launcher.py:1886, 1913, 1872 -/
inductive Err where
  /-- LauncherError: the job id could not be determined -/
  | noJobId
  /-- NameError or ValueError of the template -/
  | template
  /-- the command failed -/
  | command
  deriving DecidableEq, Repr

/-- `get_env`; LSF engines add a variable — launcher.py:204-210, 221-229, 2325-2330 -/
def getEnv (l : L) : Dict :=
  update (update (if l.sys = .lsf ∧ l.role = .engines then [(l!"LSB_STDOUT_DIRECT", l!"Y")] else [])
    [(l!"IPP_CLUSTER_ID", l.clusterId), (l!"IPP_PROFILE_DIR", l.profileDir)]) l.cfg.environment

/-- `self.n = n`, with its observer — launcher.py:1893, 1853-1855 -/
def setN (n : Nat) (l : L) : L := { l with n := n, context := if l.n = n then l.context else put l.context l!"n" (digits n) }

/-- `launcher.queue = q`, with its observer — launcher.py:1796-1798 -/
def setQueue (q : Str) (l : L) : L := { l with queue := q, context := ctxChange l.context l!"queue" l.queue q }

/-- `launcher.output_file = f`, with its observer — launcher.py:1796-1798 -/
def setOutput (f : Str) (l : L) : L := { l with outputFile := f, context := ctxChange l.context l!"output_file" l.outputFile f }

/-- `launcher.profile_dir = d`, with its observer — launcher.py:1796-1798 -/
def setProfile (d : Str) (l : L) : L := { l with profileDir := d, context := ctxChange l.context l!"profile_dir" l.profileDir d }

/-- `launcher.cluster_id = i`, with its observer — launcher.py:1796-1798 -/
def setCluster (i : Str) (l : L) : L := { l with clusterId := i, context := ctxChange l.context l!"cluster_id" l.clusterId i }

/-- the choice of the template — launcher.py:1896-1907; `none`: ValueError -/
def chooseTemplate (l : L) : Option Str :=
  let t := if l.template = [] then l.cfg.templateFile.getD [] else l.template
  if t ≠ [] then some t
  else insertAll l.sys l.role (l.queue ≠ []) (l.outputFile ≠ []) (l.cfg.account ≠ []) (l.cfg.qos ≠ []) (l.cfg.timelimit ≠ [])

/-- `write_batch_script(n)`, with the text of the variables as JSON (`dumps`) — launcher.py:1891-1917 -/
def writeScript (dumps : Dict → Str) (n : Nat) (l : L) : L × Option Str :=
  let l := setN n l
  let l := { l with context := put l.context l!"environment_json" (dumps (getEnv l)) }
  match chooseTemplate l with
  | none => (l, none)
  | some t => ({ l with template := t }, format t (update l.context l.namesp))

/-- `parse_job_id` — launcher.py:1880-1889 -/
def parseJobId (out : Str) (l : L) : L × Except Err Str :=
  match (jobRe l.sys).search out with
  | some i => ({ l with jobId := i }, .ok i)
  | none => (l, .error .noJobId)

/-- `find_args` — launcher.py:1860-1861 -/
def args (l : L) : List Str := l.cfg.submit ++ [l.batchFile]

/-- what is done with the output of the submit command — launcher.py:1956-1958, 2290-2293 -/
def started (out : Str) (l : L) : L × Except Err Str :=
  match parseJobId out l with
  | (l, .ok i) => ({ l with state := .running }, .ok i)
  | (l, .error e) => (l, .error e)

/-- submit the script that was written — launcher.py:1951-1958, 2285-2293 -/
def submit (out : Option Str) (text : Str) (l : L) : L × List Ev × Except Err Str :=
  if l.sys = .lsf then
    ((started (out.getD []) l).1, [.write l.batchFile text, .shell ((args l).getD 0 [] ++ l!"<\"" ++ (args l).getD 1 [] ++ l!"\"")], (started (out.getD []) l).2)
  else match out with
    | none => (l, [.write l.batchFile text, .run (args l) (some (getEnv l))], .error .command)
    | some o => ((started o l).1, [.write l.batchFile text, .run (args l) (some (getEnv l))], (started o l).2)

/-- `start(n)`; controllers: `start()`; `out`: what the submit command prints, `none`: it fails (LSF does not look at that: then nothing was printed) — launcher.py:1945-1958, 2005-2006, 2277-2293 -/
def start (dumps : Dict → Str) (n : Nat) (out : Option Str) (l : L) : L × List Ev × Except Err Str :=
  match writeScript dumps (if l.role = .controller then 1 else n) l with
  | (l, none) => (l, [], .error .template)
  | (l, some text) => submit out text l

/-- `stop()` — launcher.py:1960-1967; `notify_stop`: 279-294 -/
def stop (ok : Bool) (l : L) : L × List Ev × Except Err Unit :=
  let cmd := Ev.run (l.cfg.delete ++ [l.jobId]) none
  if ok then ({ l with state := .after }, if l.state = .after then [cmd] else [cmd, .stopped l.jobId], .ok ())
  else (l, [cmd], .error .command)

/-- `signal(sig)` — launcher.py:1969-1971 -/
def signal (sig : Str) (l : L) : List Ev := [.run (l.cfg.signal ++ [sig, l.jobId]) none]

/-- `to_dict()`: the traits that are tagged — launcher.py:128-145, 1741-1824 -/
structure Saved where
  profileDir : Str
  clusterId : Str
  state : LState
  outputFile : Str
  jobId : Str
  template : Str
  queue : Str
  n : Nat
  namesp : Dict

/-- `to_dict()` — launcher.py:137-145 -/
def toDict (l : L) : Saved :=
  { profileDir := l.profileDir, clusterId := l.clusterId, state := l.state, outputFile := l.outputFile, jobId := l.jobId, template := l.template, queue := l.queue, n := l.n, namesp := l.namesp }

/-- `from_dict(d)`, for a launcher of the same class — launcher.py:147-170 -/
def fromDict (s : Sys) (r : Role) (c : Config) (d : Saved) : L :=
  let l := setProfile d.profileDir (setCluster d.clusterId (init s r c))
  let l := setN d.n (setQueue d.queue (setOutput d.outputFile l))
  { l with state := d.state, jobId := d.jobId, template := d.template, namesp := d.namesp }

/-- something done to a launcher — launcher.py:1724-1986 -/
inductive Op where
  | start (n : Nat) (out : Option Str)
  | stop (ok : Bool)
  | signal (sig : Str)
  | setQueue (q : Str)
  | setOutput (f : Str)
  | setProfile (d : Str)
  | setCluster (i : Str)
  /-- written to a file and read again, in another process, with the same configuration -/
  | reload

/-- one operation — launcher.py:1724-1986 -/
def step (dumps : Dict → Str) (l : L) : Op → L
  | .start n out => (start dumps n out l).1
  | .stop ok => (stop ok l).1
  | .signal _ => l
  | .setQueue q => setQueue q l
  | .setOutput f => setOutput f l
  | .setProfile d => setProfile d l
  | .setCluster i => setCluster i l
  | .reload => fromDict l.sys l.role l.cfg (toDict l)

end IPP.Batch
