/-!
# Windows HPC jobs

The job description (`cluster/_winhpcjob.py`) and the launchers that write, submit and cancel
it (`WindowsHPCLauncher` and its two subclasses, cluster/launcher.py:1589-1716).

`xml.etree.ElementTree` (`ET.tostring`) is modelled from its documentation and source: the
attributes in the order of insertion, `&`, `<`, `>` escaped in texts, and in attributes also
`"`, carriage return, newline and tab; an element with neither text nor children is written
`<tag />`. Texts are lists of characters.
-/
namespace IPP.Cluster.WinHPC

abbrev Text := List Char

/-! ## XML text -/

/-- The pieces of an XML text. -/
inductive Tok where
  /-- `<tag k="v" …>` -/
  | start (tag : Text) (attrs : List (Text × Text))
  /-- `<tag k="v" … />` -/
  | empty (tag : Text) (attrs : List (Text × Text))
  /-- `</tag>` -/
  | stop (tag : Text)
  | text (t : Text)
deriving DecidableEq, Repr

/-- ElementTree's `_escape_cdata`, one character. -/
def escTextChar (c : Char) : Text :=
  if c = '&' then "&amp;".toList
  else if c = '<' then "&lt;".toList
  else if c = '>' then "&gt;".toList
  else [c]

/-- ElementTree's `_escape_attrib`, one character. -/
def escAttrChar (c : Char) : Text :=
  if c = '&' then "&amp;".toList
  else if c = '<' then "&lt;".toList
  else if c = '>' then "&gt;".toList
  else if c = '"' then "&quot;".toList
  else if c = '\r' then "&#13;".toList
  else if c = '\n' then "&#10;".toList
  else if c = '\t' then "&#09;".toList
  else [c]

def escText (t : Text) : Text := t.flatMap escTextChar
def escAttr (t : Text) : Text := t.flatMap escAttrChar

/-- ` k="v"` for every attribute (ElementTree's `_serialize_xml`). -/
def renderAttrs : List (Text × Text) → Text
  | [] => []
  | (k, v) :: l => ' ' :: (k ++ '=' :: '"' :: (escAttr v ++ '"' :: renderAttrs l))

/-- ElementTree's `_serialize_xml`. -/
def renderTok : Tok → Text
  | .start t as => '<' :: (t ++ (renderAttrs as ++ ['>']))
  | .empty t as => '<' :: (t ++ (renderAttrs as ++ " />".toList))
  | .stop t => '<' :: '/' :: (t ++ ['>'])
  | .text t => escText t

def render : List Tok → Text
  | [] => []
  | t :: l => renderTok t ++ render l

/-! ## Jobs and tasks -/

/-- A value of an attribute: the types of the traits that are written. -/
inductive Val where
  | str (s : Text)
  | bool (b : Bool)
  | int (n : Int)
deriving DecidableEq, Repr

/-- `as_str` (cluster/_winhpcjob.py:19-30). -/
def asStr : Val → Text
  | .str s => s
  | .bool true => "true".toList
  | .bool false => "false".toList
  | .int n => (toString n).toList

/-- `_write_attr` for a list of attributes: an empty string is not written.
(cluster/_winhpcjob.py:88-91, 170-173) -/
def writeAttrs (l : List (Text × Val)) : List (Text × Text) :=
  (l.map (fun p => (p.1, asStr p.2))).filter (fun p => p.2 ≠ [])

/-- The traits of `WinHPCTask` that are written; `command_line` is the value of the property
of the subclasses. (cluster/_winhpcjob.py:150-168, 175-193) -/
structure Task where
  version : Text := "2.000".toList
  taskName : Text := []
  minCores : Int := 1
  maxCores : Int := 1
  minSockets : Int := 1
  maxSockets : Int := 1
  minNodes : Int := 1
  maxNodes : Int := 1
  commandLine : Text := []
  workDirectory : Text := []
  isRerunnable : Bool := true
  stdOut : Text := []
  stdErr : Text := []
  isParametric : Bool := false
  unitType : Text := "Core".toList
  env : List (Text × Text) := []
deriving DecidableEq, Repr

/-- The traits of `WinHPCJob` that are written; `owner` is the user name.
(cluster/_winhpcjob.py:57-86, 94-122) -/
structure Job where
  version : Text := "2.000".toList
  jobName : Text := "MyJob".toList
  unitType : Text := "Core".toList
  minCores : Int := 1
  maxCores : Int := 1
  minSockets : Int := 1
  maxSockets : Int := 1
  minNodes : Int := 1
  maxNodes : Int := 1
  runUntilCanceled : Bool := false
  isExclusive : Bool := false
  username : Text := []
  jobType : Text := "Batch".toList
  priority : Text := "Highest".toList
  requestedNodes : Text := []
  autoCalculateMax : Bool := true
  autoCalculateMin : Bool := true
  project : Text := "IPython".toList
  xmlns : Text := "http://schemas.microsoft.com/HPCS2008/scheduler/".toList
  tasks : List Task := []
deriving DecidableEq, Repr

/-- The attributes of `<Task>` (cluster/_winhpcjob.py:175-191). -/
def taskAttrs (t : Task) : List (Text × Text) := writeAttrs
  [ ("_A_Version".toList, .str t.version),
    ("_B_Name".toList, .str t.taskName),
    ("_C_MinCores".toList, .int t.minCores),
    ("_D_MaxCores".toList, .int t.maxCores),
    ("_E_MinSockets".toList, .int t.minSockets),
    ("_F_MaxSockets".toList, .int t.maxSockets),
    ("_G_MinNodes".toList, .int t.minNodes),
    ("_H_MaxNodes".toList, .int t.maxNodes),
    ("_I_CommandLine".toList, .str t.commandLine),
    ("_J_WorkDirectory".toList, .str t.workDirectory),
    ("_K_IsRerunnable".toList, .bool t.isRerunnable),
    ("_L_StdOutFilePath".toList, .str t.stdOut),
    ("_M_StdErrFilePath".toList, .str t.stdErr),
    ("_N_IsParametric".toList, .bool t.isParametric),
    ("_O_UnitType".toList, .str t.unitType) ]

/-- The attributes of `<Job>` (cluster/_winhpcjob.py:94-117). -/
def jobAttrs (j : Job) : List (Text × Text) := writeAttrs
  [ ("_A_Version".toList, .str j.version),
    ("_B_Name".toList, .str j.jobName),
    ("_C_UnitType".toList, .str j.unitType),
    ("_D_MinCores".toList, .int j.minCores),
    ("_E_MaxCores".toList, .int j.maxCores),
    ("_F_MinSockets".toList, .int j.minSockets),
    ("_G_MaxSockets".toList, .int j.maxSockets),
    ("_H_MinNodes".toList, .int j.minNodes),
    ("_I_MaxNodes".toList, .int j.maxNodes),
    ("_J_RunUntilCanceled".toList, .bool j.runUntilCanceled),
    ("_K_IsExclusive".toList, .bool j.isExclusive),
    ("_L_UserName".toList, .str j.username),
    ("_M_JobType".toList, .str j.jobType),
    ("_N_Priority".toList, .str j.priority),
    ("_O_RequestedNodes".toList, .str j.requestedNodes),
    ("_P_AutoCalculateMax".toList, .bool j.autoCalculateMax),
    ("_Q_AutoCalculateMin".toList, .bool j.autoCalculateMin),
    ("_R_Project".toList, .str j.project),
    ("_S_Owner".toList, .str j.username),
    ("_T_xmlns".toList, .str j.xmlns) ]

/-- `"\n" + level * "  "` (cluster/_winhpcjob.py:34). -/
def nl (level : Nat) : Tok := .text ('\n' :: List.replicate (2 * level) ' ')

/-- An element with children, after `indent`: the text before the first child and the tail
of every child but the last are one level deeper than the tail of the last.
(cluster/_winhpcjob.py:33-46) -/
def children (level : Nat) : List (List Tok) → List Tok
  | [] => [nl level]
  | c :: cs => nl (level + 1) :: (c ++ children level cs)

/-- An element with the given children. -/
def element (level : Nat) (tag : Text) (attrs : List (Text × Text)) (cs : List (List Tok)) :
    List Tok :=
  if cs = [] then [.empty tag attrs]
  else .start tag attrs :: (children level cs ++ [.stop tag])

/-- An element with a text and no children. -/
def leaf (tag : Text) (t : Text) : List Tok :=
  if t = [] then [.empty tag []] else [.start tag [], .text t, .stop tag]

/-- `get_env_vars`, one variable (cluster/_winhpcjob.py:197-203). -/
def envVariable (kv : Text × Text) : List Tok :=
  element 4 "Variable".toList [] [leaf "Name".toList kv.1, leaf "Value".toList kv.2]

/-- `WinHPCTask.as_element` (cluster/_winhpcjob.py:175-204). -/
def taskToks (t : Task) : List Tok :=
  element 2 "Task".toList (taskAttrs t)
    [element 3 "EnvironmentVariables".toList [] (t.env.map envVariable)]

/-- `WinHPCJob.as_element` and `indent` (cluster/_winhpcjob.py:33-46, 94-122). -/
def jobToks (j : Job) : List Tok :=
  element 0 "Job".toList (jobAttrs j)
    [ element 1 "Dependencies".toList [] [],
      element 1 "Tasks".toList [] (j.tasks.map taskToks) ] ++ [nl 0]

/-- `re.sub(r'_[A-Z]_', '', txt)`: matches from left to right without overlap.
(cluster/_winhpcjob.py:130) -/
def strip : Text → Text
  | '_' :: c :: '_' :: l =>
    if 'A' ≤ c ∧ c ≤ 'Z' then strip l else '_' :: strip (c :: '_' :: l)
  | c :: l => c :: strip l
  | [] => []

/-- `WinHPCJob.tostring` (cluster/_winhpcjob.py:124-132). -/
def tostring (j : Job) : Text :=
  "<?xml version=\"1.0\" encoding=\"utf-8\"?>\n".toList ++ strip (render (jobToks j))

/-- `add_task` (cluster/_winhpcjob.py:140-148). -/
def addTask (j : Job) (t : Task) : Job := { j with tasks := j.tasks ++ [t] }

/-! ## The launchers -/

/-- `' '.join(words)` (cluster/_winhpcjob.py:276, 303). -/
def joinWords : List Text → Text
  | [] => []
  | [w] => w
  | w :: ws => w ++ ' ' :: joinWords ws

/-- What a launcher has: profile directory, cluster id, `environment`, the arguments for the
program; and the configuration of the task: command and first arguments. `cluster_args` of
these launchers is the empty list (cluster/launcher.py:167-170).
(cluster/launcher.py:1589-1716, cluster/_winhpcjob.py:236-303) -/
structure Launcher where
  profileDir : Text
  clusterId : Text := []
  environment : List (Text × Text) := []
  args : List Text := []
  cmd : List Text
  taskArgs : List Text := ["--log-level=40".toList]
  taskEnv : List (Text × Text) := []

/-- `cluster_args` (cluster/launcher.py:167-170). -/
def clusterArgs (_ : Launcher) : List Text := []

/-- An engine's task: its `command_line` and `work_directory`. The file names for its output,
made of `uuid`, are left out. (cluster/launcher.py:1701-1710, cluster/_winhpcjob.py:301-303) -/
def engineTask (l : Launcher) : Task :=
  { taskName := "IPEngine".toList
    workDirectory := l.profileDir
    commandLine := joinWords (l.cmd ++ (l.taskArgs ++ clusterArgs l ++ l.args))
    env := l.taskEnv }

/-- `WindowsHPCEngineSetLauncher.write_job_file(n)`: the job that is written.
(cluster/launcher.py:1697-1712) -/
def engineJob (l : Launcher) (user : Text) (n : Nat) : Job :=
  (List.range n).foldl (fun j _ => addTask j (engineTask l))
    { jobName := "IPEngineSet".toList, username := user }

/-- `\d`. Simplified: the ten ASCII digits. -/
def isDigit (c : Char) : Bool := '0' ≤ c && c ≤ '9'

/-- `parse_job_id(output)`: the first match of `\d+`, or LauncherError.
(cluster/launcher.py:1619-1628) -/
def parseJobId (output : Text) : Option Text :=
  let r := (output.dropWhile (fun c => !isDigit c)).takeWhile isDigit
  if r = [] then none else some r

/-- The arguments of the submit and the cancel command
(cluster/launcher.py:1633-1637, 1651). -/
def submitArgs (jobFile scheduler : Text) : List Text :=
  ["submit".toList, "/jobfile:".toList ++ jobFile, "/scheduler:".toList ++ scheduler]

def cancelArgs (jobId scheduler : Text) : List Text :=
  ["cancel".toList, jobId, "/scheduler:".toList ++ scheduler]

end IPP.Cluster.WinHPC
