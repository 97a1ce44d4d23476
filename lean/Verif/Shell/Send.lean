import Verif.Shell.Base64
import Verif.Shell.Json
/-!
# Model of cluster/shellcmd.py (`ShellCommandSend`) and cluster/shellcmd_receive.py (`ShellCommandReceivePosix`)

The remote side is a Python interpreter that is given the program on its standard input; of the program the parts that vary are read as Python reads them (the string literal, the name of the method), the rest is fixed text. The remote operating system is a `World`; what the remote shell itself prints (message of the day, `.bashrc`) before and after is arbitrary.
Not modelled: Windows receivers, `send_receiver_code` only as arbitrary text, logging, `check_output*`, `has_python`, `cmd_start_python_code` (its argument is UTF-8 encoded first).
-/
namespace IPP.Shell

/-! ## sending -/

/-- `str.format` with named fields and no format specifications — as called by shellcmd.py:248-259 -/
def pyFormat (args : Str → Option Str) : Nat → Str → Option Str
  | 0, _ => none
  | _ + 1, [] => some []
  | n + 1, 123 :: 123 :: r => (pyFormat args n r).map (123 :: ·)
  | n + 1, 125 :: 125 :: r => (pyFormat args n r).map (125 :: ·)
  | _ + 1, 125 :: _ => none
  | n + 1, 123 :: r => do
    let v ← args (r.takeWhile (· != 125))
    let rest ← pyFormat args n (r.dropWhile (· != 125)).tail
    return v ++ rest
  | n + 1, c :: r => (pyFormat args n r).map (c :: ·)

/-- `_shell_cmd_receive_tpl` — shellcmd.py:28-45 -/
def template : Str := l!"\nimport base64, json\n\n{define_receive}\n\ndef _decode(b64_json):\n    return json.loads(base64.b64decode(b64_json).decode(\"utf8\"))\n\ninputs_encoded = \"{inputs_encoded}\"\ninputs = _decode(inputs_encoded)\nreceive_parameters=inputs[\"receive_parameters\"]\ncommand_parameters=inputs[\"command_parameters\"]\n\nwith ShellCommandReceive(**receive_parameters) as r:\n    r.{method}(**command_parameters)\n"

/-- `str.encode("utf8")` of ASCII text; other text does not occur (`dumps_ascii`) — shellcmd.py:59-65 -/
def encodeAscii (s : Str) : Option (List Nat) := if s.all (· < 128) then some s else none

/-- `bytes.decode("utf8")` of ASCII bytes — shellcmd.py:28-45 -/
def decodeAscii (b : List Nat) : Option Str := if b.all (· < 128) then some b else none

/-- `_encode` — shellcmd.py:59-65 -/
def encode (v : J) : Option Str := (encodeAscii (dumps v)).map b64encode

/-- the command to be executed on the other side — shellcmd.py:237 -/
structure Command where
  method : Str
  args : List (Str × J)

/-- `_cmd_send`: the program — shellcmd.py:235-265. `define` is the import, or the text of the receiver. `receive_parameters` is empty on hosts that are not Windows, unless debugging. -/
def program (define : Str) (recv : List (Str × J)) (c : Command) : Option Str := do
  let enc ← encode (.obj [(l!"receive_parameters", .obj recv), (l!"command_parameters", .obj c.args)])
  pyFormat (fun n => if n = l!"define_receive" then some define else if n = l!"inputs_encoded" then some enc else if n = l!"method" then some c.method else none)
    (template.length + 1) template

/-- `receiver_import` — shellcmd.py:103-105 -/
def receiverImport : Str := l!"from ipyparallel.cluster.shellcmd_receive import ShellCommandReceive"

/-! ## the program on the other side -/

/-- `text.split("\n")` — the lines of the program, shellcmd.py:28-45 -/
def lines : Str → List Str
  | [] => [[]]
  | c :: r => if c = 10 then [] :: lines r else match lines r with
    | [] => [[c]]
    | l :: ls => (c :: l) :: ls

/-- a string literal in double quotes, after the opening quote; escapes are not modelled (they do not occur) — the literal of the program, shellcmd.py:28-45 -/
def readLiteral : Str → Option Str
  | [] => none
  | c :: r => if c = 34 then some [] else if c = 92 ∨ c = 10 then none else (readLiteral r).map (c :: ·)

/-- the lines of the program, shellcmd.py:28-45 -/
def findPrefix (p : Str) : List Str → Option (Str × List Str)
  | [] => none
  | l :: ls => match stripPrefix p l with
    | some r => some (r, ls)
    | none => findPrefix p ls

/-- `d[key]` — Python's dict lookup in the program, shellcmd.py:28-45 -/
def J.get (key : Str) : J → Option J
  | .obj l => (l.reverse.find? (fun kv => kv.1 = key)).map (·.2)
  | _ => none

/-- `**` in the program, shellcmd.py:28-45 -/
def J.members : J → Option (List (Str × J))
  | .obj l => some l
  | _ => none

/-- what the program does: decode the inputs, call the method with them — shellcmd.py:28-45 -/
def execute (prog : Str) : Option Command := do
  let (r, ls) ← findPrefix l!"inputs_encoded = \"" (lines prog)
  let enc ← readLiteral r
  let inputs ← (b64decode enc).bind decodeAscii |>.bind loads
  let _ ← inputs.get l!"receive_parameters"
  let args ← (inputs.get l!"command_parameters").bind J.members
  let (m, _) ← findPrefix l!"    r." ls
  return ⟨m.takeWhile (· != 40), args⟩

/-! ## the receiver — shellcmd_receive.py -/

/-- shellcmd_receive.py:213-224 -/
structure Proc where
  pid : Nat
  argv : List Str
  environ : Str → Option Str
  output : Option Str

/-- the remote host of shellcmd_receive.py:112-121, 213-237 -/
structure World where
  environ : Str → Option Str
  /-- `Popen` of this command: its pid, or an error -/
  spawn : List Str → Option Nat
  started : List Proc := []
  running : Nat → Bool
  /-- signals delivered -/
  signals : List (Nat × Nat) := []
  files : Str → Bool

/-- `str(value)` — shellcmd_receive.py:66-82 -/
def strOf : J → Option Str
  | .str s => some s
  | .num i => some (dumpInt i)
  | .bool true => some l!"True"
  | .bool false => some l!"False"
  | _ => none

/-- `_prepare_cmd_start`: `os.environ` after the updates — shellcmd_receive.py:66-82 -/
def updateEnviron (base : Str → Option Str) : List (Str × J) → Option (Str → Option Str)
  | [] => some base
  | (k, v) :: rest =>
    match v with
    | .null | .str [] => updateEnviron (fun x => if x = k then none else base x) rest
    | v => do
      let s ← strOf v
      updateEnviron (fun x => if x = k then some s else base x) rest

/-- `start_cmd` as a list of strings — shellcmd_receive.py:84-88 -/
def asCmd : J → Option (List Str)
  | .str s => some [s]
  | .arr l => l.mapM fun v => match v with
    | .str s => some s
    | _ => none
  | _ => none

/-- a parameter of a method; a missing one has the default `None` — the parameters of shellcmd_receive.py:112-121, 213-237 -/
def param (args : List (Str × J)) (k : Str) : J := (J.get k (.obj args)).getD .null

/-- `r.{method}(**command_parameters)`: standard output and the world afterwards; `none` if it raises — shellcmd_receive.py:112-121, 213-237 -/
def receive (w : World) (c : Command) : Option (Str × World) :=
  if c.method = l!"cmd_start" then do
    -- shellcmd_receive.py:213-224; a process whose command cannot be started raises
    let env ← match param c.args l!"env" with
      | .null => some w.environ
      | .obj l => updateEnviron w.environ l
      | _ => none
    let argv ← asCmd (param c.args l!"cmd")
    let out ← match param c.args l!"output_file" with
      | .null => some none
      | .str [] => some none
      | .str s => some (some s)
      | _ => none
    let pid ← w.spawn argv
    return (l!"__remote_pid=" ++ dec pid ++ l!"__\n", { w with started := w.started ++ [⟨pid, argv, env, out⟩] })
  else if c.method = l!"cmd_running" then
    -- shellcmd_receive.py:226-233
    match param c.args l!"pid" with
    | .num (.ofNat pid) => some (if w.running pid then l!"__running=1__\n" else l!"__running=0__\n", w)
    | _ => none
  else if c.method = l!"cmd_kill" then
    -- shellcmd_receive.py:235-237: `os.kill(pid, None)` raises TypeError
    match param c.args l!"pid", param c.args l!"sig" with
    | .num (.ofNat pid), .num (.ofNat sig) => if w.running pid then some ([], { w with signals := w.signals ++ [(pid, sig)] }) else none
    | _, _ => none
  else if c.method = l!"cmd_exists" then
    -- shellcmd_receive.py:112-117
    match param c.args l!"path" with
    | .str p => some (if w.files p then l!"__exists=1__\n" else l!"__exists=0__\n", w)
    | _ => none
  else if c.method = l!"cmd_remove" then
    -- shellcmd_receive.py:119-121
    match param c.args l!"path" with
    | .str p => if w.files p then some ([], { w with files := fun x => if x = p then false else w.files x }) else none
    | _ => none
  else none

/-- `_check_output(shell + args + [python], input=program)`: what comes back, with what the shell prints before and after; `none` is `CalledProcessError` — shellcmd.py:237-265 -/
def sendOver (pre post define : Str) (recv : List (Str × J)) (w : World) (c : Command) : Option (Str × World) := do
  let prog ← program define recv c
  let c' ← execute prog
  let (out, w') ← receive w c'
  return (pre ++ out ++ post, w')

/-! ## reading the output -/

/-- letters: `[a-z]` with IGNORECASE (which for `str` patterns includes U+0130, U+0131, U+017F and U+212A) — shellcmd.py:97-99 -/
def isAlpha (c : Nat) : Bool := decide ((65 ≤ c ∧ c ≤ 90) ∨ (97 ≤ c ∧ c ≤ 122) ∨ c = 0x130 ∨ c = 0x131 ∨ c = 0x17f ∨ c = 0x212a)
/-- shellcmd.py:97-99 -/
def isKeyChar (c : Nat) : Bool := isAlpha c || isDigit c || c == 95
/-- shellcmd.py:97-99 -/
def isValChar (c : Nat) : Bool := isAlpha c || isDigit c || c == 45 || c == 46

/-- a match of `__([a-z][a-z0-9_]+)=([a-z0-9\-\.]+)__` at this position. (The classes do not contain the characters that follow them, so greedy matching never has to be taken back.) — shellcmd.py:97-99 -/
def matchAt : Str → Option ((Str × Str) × Str)
  | 95 :: 95 :: c :: t =>
    if isAlpha c then
      match t.takeWhile isKeyChar, t.dropWhile isKeyChar with
      | k :: ks, 61 :: u =>
        match u.takeWhile isValChar, u.dropWhile isValChar with
        | v :: vs, 95 :: 95 :: rest => some ((c :: k :: ks, v :: vs), rest)
        | _, _ => none
      | _, _ => none
    else none
  | _ => none

/-- `findall`: leftmost matches that do not overlap — as called by shellcmd.py:267-273 -/
def findallAux : Nat → Str → List (Str × Str)
  | 0, _ => []
  | _ + 1, [] => []
  | n + 1, c :: t => match matchAt (c :: t) with
    | some (kv, rest) => kv :: findallAux n rest
    | none => findallAux n t

/-- as called by shellcmd.py:267-273 -/
def findall (s : Str) : List (Str × Str) := findallAux s.length s

/-- `int(s)` for what the pattern admits — shellcmd.py:267-273 -/
def pyInt : Str → Option Int
  | 45 :: s => if s ≠ [] ∧ s.all isDigit then some (-(natOf s : Int)) else none
  | s => if s ≠ [] ∧ s.all isDigit then some (natOf s) else none

/-- `_get_pid` — shellcmd.py:267-273: of several the last one counts -/
def getPid (output : Str) : Option Int := do
  let kv ← (findall output).reverse.find? (fun kv => kv.1 = l!"remote_pid")
  pyInt kv.2

/-- `t in s` — shellcmd.py:466-478, 498-510 -/
def contains (t : Str) : Str → Bool
  | [] => t.isEmpty
  | c :: s => (stripPrefix t (c :: s)).isSome || contains t s

/-- the methods of `ShellCommandSend` — shellcmd.py:420-524; `tr` sends a command and gets the output -/
abbrev Transport := World → Command → Option (Str × World)

/-- `cmd_start` — shellcmd.py:420-432 -/
def cmdStart (tr : Transport) (w : World) (cmd env output : J) : Option (Int × World) := do
  let (out, w) ← tr w ⟨l!"cmd_start", [(l!"cmd", cmd), (l!"env", env), (l!"output_file", output)]⟩
  return (← getPid out, w)

/-- `cmd_running` — shellcmd.py:466-478 -/
def cmdRunning (tr : Transport) (w : World) (pid : Int) : Option Bool := do
  let (out, _) ← tr w ⟨l!"cmd_running", [(l!"pid", .num pid)]⟩
  if contains l!"__running=1__" out then return true else if contains l!"__running=0__" out then return false else none

/-- `cmd_kill` — shellcmd.py:480-486 -/
def cmdKill (tr : Transport) (w : World) (pid : Int) (sig : Option Int) : Option World := do
  let (_, w) ← match sig with
    | some s => if s ≠ 0 then tr w ⟨l!"cmd_kill", [(l!"pid", .num pid), (l!"sig", .num s)]⟩ else tr w ⟨l!"cmd_kill", [(l!"pid", .num pid)]⟩
    | none => tr w ⟨l!"cmd_kill", [(l!"pid", .num pid)]⟩
  return w

/-- `cmd_exists` — shellcmd.py:498-510 -/
def cmdExists (tr : Transport) (w : World) (path : Str) : Option Bool := do
  let (out, _) ← tr w ⟨l!"cmd_exists", [(l!"path", .str path)]⟩
  if contains l!"__exists=1__" out then return true else if contains l!"__exists=0__" out then return false else none

/-- `cmd_remove` — shellcmd.py:512-515 -/
def cmdRemove (tr : Transport) (w : World) (path : Str) : Option World := do
  let (_, w) ← tr w ⟨l!"cmd_remove", [(l!"path", .str path)]⟩
  return w

/-! ## `initialize` — shellcmd.py:299-370 -/

/-- shellcmd.py:333 -/
def lstrip (p : Nat → Bool) (s : Str) : Str := s.dropWhile p
/-- shellcmd.py:333 -/
def strip (p : Nat → Bool) (s : Str) : Str := (lstrip p (lstrip p s).reverse).reverse
/-- shellcmd.py:333 -/
def isWs (c : Nat) : Bool := c == 32 || c == 9 || c == 10 || c == 13 || c == 11 || c == 12

/-- `s.split(chr(sep))` — shellcmd.py:333-346 -/
def splitOn (sep : Nat) : Str → List Str
  | [] => [[]]
  | c :: r => if c = sep then [] :: splitOn sep r else match splitOn sep r with
    | [] => [[c]]
    | l :: ls => (c :: l) :: ls

/-- shellcmd.py:341-371 -/
structure Info where
  system : Option Str := none
  shell : Option Str := none
  win : Bool
  backslash : Bool := false
  joinParams : Bool := true
  deriving DecidableEq

/-- `None` stands for `_win` of the sender's own platform; `none` if an entry cannot be unpacked — shellcmd.py:344-366 -/
def classifyEntry (i : Info) (e : Str) : Option Info :=
  match splitOn 61 e with
  | [key, val] =>
    if key = l!"OS-WIN-CMD" then some { i with system := some val, shell := some l!"cmd.exe", win := true, joinParams := false, backslash := true }
    else if key = l!"OS-WIN-PW" then some { i with system := some val, shell := some l!"powershell.exe", win := true, backslash := true }
    else if key = l!"OS-LINUX" then some { i with system := some val, win := false }
    else if key = l!"SHELL" then some { i with shell := some val }
    else some i
  | _ => none

/-- shellcmd.py:334-340 -/
def validEntry (e : Str) : Bool := !(contains l!"=$" e || contains l!"=%" e || contains l!"=:" e || e.getLast? == some 61)

/-- the answer to the echo command — shellcmd.py:333-371 -/
def classify (localWin : Bool) (output : Str) : Option Info :=
  let entries := splitOn 59 (strip (· == 34) (strip (fun c => c == 92 || c == 34) (strip isWs output)))
  -- `e[-1]` of an empty entry raises
  if entries.any (·.isEmpty) then none
  else (entries.filter validEntry).foldlM classifyEntry { win := localWin }

end IPP.Shell
