import Verif.Launcher.Quote
/-!
# C88: what the batch-system launchers submit, and which job they stop

The specification: the lines of the script of each batch system (`specLines`), the job id in the output of the submit command (`IsJobId`), and which scripts pass the variables of the environment on (`passesEnv`).
-/
namespace IPP.Batch
open IPP.Shell (Str)

/-! ## Specification -/

/-- a piece of a line: fixed text, or a value -/
inductive Piece where
  | t (s : Str)
  | n | queue | output | account | qos | timelimit | clusterId
  /-- the command -/
  | cmd
  /-- the arguments of the command -/
  | cmdArgs

/-- the value of a piece, for a launcher starting `k` -/
def Piece.value (l : L) (k : Nat) : Piece → Str
  | .t s => s
  | .n => (Nat.toDigits 10 k).map Char.toNat
  | .queue => l.queue
  | .output => l.outputFile
  | .account => l.cfg.account
  | .qos => l.cfg.qos
  | .timelimit => l.cfg.timelimit
  | .clusterId => l.clusterId
  | .cmd => shlexJoin (l.cfg.program ++ l.cfg.programArgs)
  | .cmdArgs => shlexJoin l.cfg.programArgs

/-- lines that are only there if asked for -/
def only (b : Bool) (ls : List (List Piece)) : List (List Piece) := if b then ls else []

/-- the lines of the script; `q`, `o`, `a`, `k`, `w`: a queue, an output file, an account, a QoS, a time limit are set -/
def specLines (s : Sys) (r : Role) (q o a k w : Bool) : List (List Piece) :=
  match s, r with
  | .pbs, r =>
    [[.t l!"#!/bin/sh"], [.t l!"#PBS -t 1-", .n]] ++ only q [[.t l!"#PBS -q ", .queue]] ++ only o [[.t l!"#PBS -j oe"], [.t l!"#PBS -o ", .output]] ++
    [[.t l!"#PBS -V"], [.t l!"#PBS -N ", .t (if r = .controller then l!"ipcontroller" else l!"ipengine")], [.cmd], []]
  | .sge, r =>
    [[.t l!"#$ -V"], [.t l!"#$ -t 1-", .n]] ++ only q [[.t l!"#$ -q ", .queue]] ++ only o [[.t l!"#PBS -j oe"], [.t l!"#PBS -o ", .output]] ++
    [[.t l!"#$ -S /bin/sh"], [.t l!"#$ -N ", .t (if r = .controller then l!"ipcontroller" else l!"ipengine")], [.cmd], []]
  | .slurm, .engines =>
    [[.t l!"#!/bin/sh"], [.t l!"#SBATCH --ntasks=", .n]] ++ only a [[.t l!"#SBATCH --account=", .account]] ++ only k [[.t l!"#SBATCH --qos=", .qos]] ++ only w [[.t l!"#SBATCH --time=", .timelimit]] ++
    only q [[.t l!"#SBATCH --partition=", .queue]] ++ only o [[.t l!"#SBATCH --output=", .output]] ++
    [[.t l!"#SBATCH --export=ALL"], [.t l!"#SBATCH --job-name=ipengine-", .clusterId], [.t l!"srun ", .cmd], []]
  | .slurm, .controller =>
    [[.t l!"#!/bin/sh"]] ++ only a [[.t l!"#SBATCH --account=", .account]] ++ only k [[.t l!"#SBATCH --qos=", .qos]] ++ only w [[.t l!"#SBATCH --time=", .timelimit]] ++
    only q [[.t l!"#SBATCH --partition=", .queue]] ++ only o [[.t l!"#SBATCH --output=", .output]] ++
    [[.t l!"#SBATCH --export=ALL"], [.t l!"#SBATCH --job-name=ipcontroller-", .clusterId], [.t l!"#SBATCH --ntasks=1"], [.cmd], []]
  | .lsf, r =>
    [[.t l!"#!/bin/sh"], [.t l!"#BSUB -J ipengine[1-", .n, .t l!"]"]] ++ only q [[.t l!"#BSUB -q ", .queue]] ++ only o [[.t l!"#BSUB -o ", .output], [.t l!"#BSUB -e ", .output], []] ++
    (if r = .controller then [[.t l!"    #BSUB -env all"], [.t l!"    #BSUB -J ipcontroller-", .clusterId]] else [[.t l!"    #BSUB -J ipengine-", .clusterId], [.t l!"    #BSUB -env all"]]) ++
    [[.t l!"    ", .cmd], [.t l!"    "]]
  | .condor, r =>
    [[], [.t l!"universe        = vanilla"], [.t l!"executable      = ", .t (if r = .controller then l!"ipcontroller" else l!"ipengine")], [.t l!"# by default we expect a shared file system"], [.t l!"transfer_executable = False"],
     if r = .controller then [.t l!"arguments       = ", .cmdArgs] else [.t l!"arguments       = \"", .cmdArgs, .t l!"\""], [], [.t l!"queue ", .n]]

/-- the script for `k` processes -/
def specScript (l : L) (k : Nat) : Str :=
  joinNl ((specLines l.sys l.role (l.queue ≠ []) (l.outputFile ≠ []) (l.cfg.account ≠ []) (l.cfg.qos ≠ []) (l.cfg.timelimit ≠ [])).map (fun ps => ps.flatMap (Piece.value l k)))

/-- `i` is the job id in the output of the submit command: the first number; HTCondor: the number before the full stop at the end -/
def IsJobId (s : Sys) (out i : Str) : Prop :=
  i ≠ [] ∧ (∀ c ∈ i, isDigit c = true) ∧
  if s = .condor then ∃ pre e, out = pre ++ i ++ e ∧ (e = l!"." ∨ e = l!".\n") ∧ ∀ c, pre.getLast? = some c → isDigit c = false
  else ∃ pre post, out = pre ++ i ++ post ∧ (∀ c ∈ pre, isDigit c = false) ∧ ∀ c, post.head? = some c → isDigit c = false

/-- states that operations lead to, from the constructor -/
inductive Reach (dumps : Dict → Str) : L → Prop where
  | init (s : Sys) (r : Role) (c : Config) : Reach dumps (init s r c)
  | step {l : L} (h : Reach dumps l) (o : Op) : Reach dumps (step dumps l o)

/-! ## dicts -/

theorem get_put_same (d : Dict) (k v : Str) : get (put d k v) k = some v := by simp [get, put]

theorem get_put_ne (d : Dict) (k v j : Str) (h : k ≠ j) : get (put d k v) j = get d j := by
  simp only [get, put, List.find?_cons, h, decide_false]
  rw [List.find?_filter]
  congr 2
  funext a
  by_cases ha : a.1 = j
  · simp [ha]
    exact fun e => h e.symm
  · simp [ha]

/-- `update` with a dict that has the key, and has it once -/
theorem get_update_not (d e : Dict) (k : Str) (h : ∀ p ∈ e, p.1 ≠ k) : get (update d e) k = get d k := by
  unfold update
  induction e generalizing d with
  | nil => rfl
  | cons p e ih =>
    simp only [List.foldl_cons]
    rw [ih _ (fun q hq => h q (List.mem_cons_of_mem _ hq)), get_put_ne _ _ _ _ (h p List.mem_cons_self)]

theorem get_update_mem (d e : Dict) (k v : Str) (hd : (e.map (·.1)).Nodup) (h : (k, v) ∈ e) : get (update d e) k = some v := by
  induction e generalizing d with
  | nil => cases h
  | cons p e ih =>
    simp only [List.map_cons, List.nodup_cons] at hd
    show get (update (put d p.1 p.2) e) k = _
    rcases List.mem_cons.1 h with rfl | h'
    · rw [get_update_not _ _ _ (fun q hq e => hd.1 (by rw [← e]; exact List.mem_map.2 ⟨q, hq, rfl⟩)), get_put_same]
    · exact ih _ hd.2 h'

/-! ## the context of the templates is up to date -/

structure Good (l : L) : Prop where
  n : get l.context l!"n" = some (digits l.n)
  queue : get l.context l!"queue" = some l.queue
  profile : get l.context l!"profile_dir" = some l.profileDir
  cluster : get l.context l!"cluster_id" = some l.clusterId
  output : get l.context l!"output_file" = some l.outputFile
  account : l.sys = .slurm → l.cfg.account ≠ [] → get l.context l!"account" = some l.cfg.account
  qos : l.sys = .slurm → l.cfg.qos ≠ [] → get l.context l!"qos" = some l.cfg.qos
  timelimit : l.sys = .slurm → l.cfg.timelimit ≠ [] → get l.context l!"timelimit" = some l.cfg.timelimit
  cmd : get l.context l!"program_and_args" = some (shlexJoin (l.cfg.program ++ l.cfg.programArgs))
  cmdArgs : get l.context l!"program_args" = some (shlexJoin l.cfg.programArgs)
  file : l.batchFile = pathJoin l.cfg.workDir (fileName l.sys l.role)

theorem get_ctxChange_same (d : Dict) (k old new : Str) (h : get d k = some old) : get (ctxChange d k old new) k = some new := by
  by_cases e : old = new
  · rw [ctxChange, if_pos e, h, e]
  · rw [ctxChange, if_neg e, get_put_same]

theorem get_ctxChange_ne (d : Dict) (k old new j : Str) (h : k ≠ j) : get (ctxChange d k old new) j = get d j := by
  by_cases e : old = new
  · rw [ctxChange, if_pos e]
  · rw [ctxChange, if_neg e, get_put_ne _ _ _ _ h]

theorem get_ctxChange_new (d : Dict) (k new : Str) (h : new ≠ []) : get (ctxChange d k [] new) k = some new := by
  rw [ctxChange, if_neg (fun e => h e.symm), get_put_same]

theorem good_init (s : Sys) (r : Role) (c : Config) : Good (init s r c) := by
  have e1 : digits 1 = l!"1" := by decide
  constructor <;> simp only [init, initContext] <;>
    first
    | rfl
    | (by_cases hs : s = .slurm
       · subst hs
         simp only [if_true]
         repeat (first | rw [get_put_same] | rw [get_put_ne _ _ _ _ (by decide)] | rw [get_ctxChange_ne _ _ _ _ _ (by decide)])
         first | rfl | (rw [e1]; rfl) | (intro _ h; exact get_ctxChange_new _ _ _ h)
       · simp only [hs, if_false]
         repeat (first | rw [get_put_same] | rw [get_put_ne _ _ _ _ (by decide)])
         first | rfl | (rw [e1]; rfl) | (intro h; exact absurd h hs))
    | (intro hs h
       subst hs
       simp only [if_true]
       repeat (first | rw [get_put_ne _ _ _ _ (by decide)] | rw [get_ctxChange_new _ _ _ h] | rw [get_ctxChange_ne _ _ _ _ _ (by decide)]))

/-- another key of the context is changed -/
theorem Good.other {l : L} (g : Good l) (k v : Str) (h : ∀ j ∈ ([l!"n", l!"queue", l!"profile_dir", l!"cluster_id", l!"output_file", l!"account", l!"qos", l!"timelimit", l!"program_and_args", l!"program_args"] : List Str), k ≠ j) :
    Good { l with context := put l.context k v } := by
  constructor
  · exact (get_put_ne _ _ _ _ (h _ (by decide))).trans g.n
  · exact (get_put_ne _ _ _ _ (h _ (by decide))).trans g.queue
  · exact (get_put_ne _ _ _ _ (h _ (by decide))).trans g.profile
  · exact (get_put_ne _ _ _ _ (h _ (by decide))).trans g.cluster
  · exact (get_put_ne _ _ _ _ (h _ (by decide))).trans g.output
  · exact fun a b => (get_put_ne _ _ _ _ (h _ (by decide))).trans (g.account a b)
  · exact fun a b => (get_put_ne _ _ _ _ (h _ (by decide))).trans (g.qos a b)
  · exact fun a b => (get_put_ne _ _ _ _ (h _ (by decide))).trans (g.timelimit a b)
  · exact (get_put_ne _ _ _ _ (h _ (by decide))).trans g.cmd
  · exact (get_put_ne _ _ _ _ (h _ (by decide))).trans g.cmdArgs
  · exact g.file

theorem good_setN {l : L} (g : Good l) (n : Nat) : Good (setN n l) := by
  by_cases e : l.n = n
  · subst e; simpa [setN] using g
  · simp only [setN, if_neg e]
    constructor
    · exact get_put_same _ _ _
    · exact (get_put_ne _ _ _ _ (by decide)).trans g.queue
    · exact (get_put_ne _ _ _ _ (by decide)).trans g.profile
    · exact (get_put_ne _ _ _ _ (by decide)).trans g.cluster
    · exact (get_put_ne _ _ _ _ (by decide)).trans g.output
    · exact fun a b => (get_put_ne _ _ _ _ (by decide)).trans (g.account a b)
    · exact fun a b => (get_put_ne _ _ _ _ (by decide)).trans (g.qos a b)
    · exact fun a b => (get_put_ne _ _ _ _ (by decide)).trans (g.timelimit a b)
    · exact (get_put_ne _ _ _ _ (by decide)).trans g.cmd
    · exact (get_put_ne _ _ _ _ (by decide)).trans g.cmdArgs
    · exact g.file

theorem good_setQueue {l : L} (g : Good l) (q : Str) : Good (setQueue q l) := by
  constructor
  · exact (get_ctxChange_ne _ _ _ _ _ (by decide)).trans g.n
  · exact get_ctxChange_same _ _ _ _ g.queue
  · exact (get_ctxChange_ne _ _ _ _ _ (by decide)).trans g.profile
  · exact (get_ctxChange_ne _ _ _ _ _ (by decide)).trans g.cluster
  · exact (get_ctxChange_ne _ _ _ _ _ (by decide)).trans g.output
  · exact fun a b => (get_ctxChange_ne _ _ _ _ _ (by decide)).trans (g.account a b)
  · exact fun a b => (get_ctxChange_ne _ _ _ _ _ (by decide)).trans (g.qos a b)
  · exact fun a b => (get_ctxChange_ne _ _ _ _ _ (by decide)).trans (g.timelimit a b)
  · exact (get_ctxChange_ne _ _ _ _ _ (by decide)).trans g.cmd
  · exact (get_ctxChange_ne _ _ _ _ _ (by decide)).trans g.cmdArgs
  · exact g.file

theorem good_setOutput {l : L} (g : Good l) (q : Str) : Good (setOutput q l) := by
  constructor
  · exact (get_ctxChange_ne _ _ _ _ _ (by decide)).trans g.n
  · exact (get_ctxChange_ne _ _ _ _ _ (by decide)).trans g.queue
  · exact (get_ctxChange_ne _ _ _ _ _ (by decide)).trans g.profile
  · exact (get_ctxChange_ne _ _ _ _ _ (by decide)).trans g.cluster
  · exact get_ctxChange_same _ _ _ _ g.output
  · exact fun a b => (get_ctxChange_ne _ _ _ _ _ (by decide)).trans (g.account a b)
  · exact fun a b => (get_ctxChange_ne _ _ _ _ _ (by decide)).trans (g.qos a b)
  · exact fun a b => (get_ctxChange_ne _ _ _ _ _ (by decide)).trans (g.timelimit a b)
  · exact (get_ctxChange_ne _ _ _ _ _ (by decide)).trans g.cmd
  · exact (get_ctxChange_ne _ _ _ _ _ (by decide)).trans g.cmdArgs
  · exact g.file

theorem good_setProfile {l : L} (g : Good l) (q : Str) : Good (setProfile q l) := by
  constructor
  · exact (get_ctxChange_ne _ _ _ _ _ (by decide)).trans g.n
  · exact (get_ctxChange_ne _ _ _ _ _ (by decide)).trans g.queue
  · exact get_ctxChange_same _ _ _ _ g.profile
  · exact (get_ctxChange_ne _ _ _ _ _ (by decide)).trans g.cluster
  · exact (get_ctxChange_ne _ _ _ _ _ (by decide)).trans g.output
  · exact fun a b => (get_ctxChange_ne _ _ _ _ _ (by decide)).trans (g.account a b)
  · exact fun a b => (get_ctxChange_ne _ _ _ _ _ (by decide)).trans (g.qos a b)
  · exact fun a b => (get_ctxChange_ne _ _ _ _ _ (by decide)).trans (g.timelimit a b)
  · exact (get_ctxChange_ne _ _ _ _ _ (by decide)).trans g.cmd
  · exact (get_ctxChange_ne _ _ _ _ _ (by decide)).trans g.cmdArgs
  · exact g.file

theorem good_setCluster {l : L} (g : Good l) (q : Str) : Good (setCluster q l) := by
  constructor
  · exact (get_ctxChange_ne _ _ _ _ _ (by decide)).trans g.n
  · exact (get_ctxChange_ne _ _ _ _ _ (by decide)).trans g.queue
  · exact (get_ctxChange_ne _ _ _ _ _ (by decide)).trans g.profile
  · exact get_ctxChange_same _ _ _ _ g.cluster
  · exact (get_ctxChange_ne _ _ _ _ _ (by decide)).trans g.output
  · exact fun a b => (get_ctxChange_ne _ _ _ _ _ (by decide)).trans (g.account a b)
  · exact fun a b => (get_ctxChange_ne _ _ _ _ _ (by decide)).trans (g.qos a b)
  · exact fun a b => (get_ctxChange_ne _ _ _ _ _ (by decide)).trans (g.timelimit a b)
  · exact (get_ctxChange_ne _ _ _ _ _ (by decide)).trans g.cmd
  · exact (get_ctxChange_ne _ _ _ _ _ (by decide)).trans g.cmdArgs
  · exact g.file

/-- fields that the context does not follow -/
theorem Good.fields {l : L} (g : Good l) (t : Str) (j : Str) (s : LState) (ns : Dict) : Good { l with template := t, jobId := j, state := s, namesp := ns } :=
  ⟨g.n, g.queue, g.profile, g.cluster, g.output, g.account, g.qos, g.timelimit, g.cmd, g.cmdArgs, g.file⟩

/-- the state in which the template is filled in -/
def ready (dumps : Dict → Str) (n : Nat) (l : L) : L :=
  let l := setN n l
  { l with context := put l.context l!"environment_json" (dumps (getEnv l)) }

theorem good_ready {l : L} (g : Good l) (dumps : Dict → Str) (n : Nat) : Good (ready dumps n l) :=
  Good.other (good_setN g n) _ _ (by decide)

theorem writeScript_eq (dumps : Dict → Str) (n : Nat) (l : L) : writeScript dumps n l =
    match chooseTemplate (ready dumps n l) with
    | none => (ready dumps n l, none)
    | some t => ({ ready dumps n l with template := t }, format t (update (ready dumps n l).context l.namesp)) := rfl

theorem good_write {l : L} (g : Good l) (dumps : Dict → Str) (n : Nat) : Good (writeScript dumps n l).1 := by
  rw [writeScript_eq]
  have g2 := good_ready g dumps n
  cases chooseTemplate (ready dumps n l) with
  | none => exact g2
  | some t => exact Good.fields g2 t _ _ _

theorem good_started {l : L} (g : Good l) (out : Str) : Good (started out l).1 := by
  unfold started parseJobId
  cases (jobRe l.sys).search out with
  | none => exact g
  | some i => exact Good.fields g _ i _ _

theorem good_start {l : L} (g : Good l) (dumps : Dict → Str) (n : Nat) (out : Option Str) : Good (start dumps n out l).1 := by
  unfold start
  have gw := good_write g dumps (if l.role = .controller then 1 else n)
  generalize writeScript dumps (if l.role = .controller then 1 else n) l = w at gw
  obtain ⟨l2, t⟩ := w
  cases t with
  | none => exact gw
  | some text =>
    show Good (submit out text l2).1
    unfold submit
    by_cases hs : l2.sys = .lsf
    · rw [if_pos hs]; exact good_started gw _
    · rw [if_neg hs]
      cases out with
      | none => exact gw
      | some o => exact good_started gw _

theorem good_reach {dumps : Dict → Str} {l : L} (h : Reach dumps l) : Good l := by
  induction h with
  | init s r c => exact good_init s r c
  | @step l _ o ih =>
    cases o with
    | start n out => exact good_start ih dumps n out
    | stop ok =>
      cases ok with
      | false => exact ih
      | true => exact Good.fields ih _ _ _ _
    | signal s => exact ih
    | setQueue q => exact good_setQueue ih q
    | setOutput q => exact good_setOutput ih q
    | setProfile q => exact good_setProfile ih q
    | setCluster q => exact good_setCluster ih q
    | reload =>
      have := good_setN (good_setQueue (good_setOutput (good_setProfile (good_setCluster (good_init l.sys l.role l.cfg) l.clusterId) l.profileDir) l.outputFile) l.queue) l.n
      exact Good.fields this _ _ _ _

end IPP.Batch
