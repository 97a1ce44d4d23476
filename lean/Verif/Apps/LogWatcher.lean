/-!
# Forwarded log messages

`EnginePUBHandler` (engine/log.py), pyzmq's `PUBHandler`, and the `LogWatcher` of iplogger
(apps/logwatcher.py). pyzmq is modelled by its source (`zmq/log/handlers.py`,
`Socket.setsockopt`); text is a list of characters, bytes are the text they encode.
-/
namespace IPP.Apps.LogWatch

abbrev Text := List Char

/-- A Python string or bytes. -/
inductive Py where
  | str (t : Text)
  | bytes (t : Text)
deriving DecidableEq, Repr

inductive Err where
  | typeError
  | attributeError
  | indexError
deriving DecidableEq, Repr

/-- `t.split('.')`. -/
def splitDots : Text → List Text
  | [] => [[]]
  | c :: t =>
    if c = '.' then [] :: splitDots t
    else match splitDots t with
      | [] => [[c]]
      | w :: ws => (c :: w) :: ws

/-- `'.'.join(l)`. -/
def joinDots : List Text → Text
  | [] => []
  | [w] => w
  | w :: ws => w ++ '.' :: joinDots ws

/-- `t.rsplit('.', 1)` of a text with a dot. -/
def rsplitDot (t : Text) : Text × Text :=
  (((t.reverse.dropWhile (· ≠ '.')).drop 1).reverse, (t.reverse.takeWhile (· ≠ '.')).reverse)

/-! ## The sender -/

/-- `EnginePUBHandler.root_topic` (engine/log.py:13-20), and `'controller'`
(controller/app.py:1214). -/
inductive Root where
  | controller
  | engine (id : Option Nat)

def Root.topic : Root → Text
  | .controller => "controller".toList
  | .engine none => "engine".toList
  | .engine (some n) => "engine.".toList ++ Nat.toDigits 10 n

/-- The making of the handler. `sets`: `PUBHandler.__init__` assigns `self.root_topic`, as pyzmq
does since it takes `root_topic` as an argument; the property of EnginePUBHandler has no setter.
(engine/log.py:9-20, engine/app.py:936-944) -/
def makeHandler (sets : Bool) : Root → Except Err Unit
  | .controller => .ok ()
  | .engine _ => if sets then .error .attributeError else .ok ()

/-- `PUBHandler.emit`: the two frames. The message is formatted with a newline at its end. -/
def emit (root : Root) (levelname : Text) (subtopic : Text) (msg : Text) : List Py :=
  [.bytes (joinDots ((root.topic :: levelname :: (if subtopic = [] then [] else [subtopic])))),
   .bytes (msg ++ ['\n'])]

/-! ## The watcher -/

/-- `socket.setsockopt` for an option that takes bytes. -/
def setsockopt : Py → Except Err Unit
  | .bytes _ => .ok ()
  | .str _ => .error .typeError

def subscribeAll : List Text → Except Err Unit
  | [] => .ok ()
  | t :: l => match setsockopt (.str t) with
    | .error e => .error e
    | .ok _ => subscribeAll l

/-- `LogWatcher.subscribe` (apps/logwatcher.py:60-69). -/
def subscribe (topics : List Text) : Except Err Unit :=
  match setsockopt (.str []) with
  | .error e => .error e
  | .ok _ => if topics.contains [] then setsockopt (.str []) else subscribeAll topics

/-- An attribute of the module `logging`. -/
inductive Attr where
  | level (n : Int)
  | other
deriving DecidableEq, Repr

/-- The first topic that names an attribute, with its index: the loop of `_extract_level`.
(apps/logwatcher.py:73-77) -/
def firstAttr (logging : Text → Option Attr) : List Text → Option (Nat × Attr)
  | [] => none
  | t :: l => match logging t with
    | some a => some (0, a)
    | none => (firstAttr logging l).map (fun p => (p.1 + 1, p.2))

/-- `_extract_level` (apps/logwatcher.py:71-84). -/
def extractLevel (logging : Text → Option Attr) (topic : Text) : Attr × Text :=
  match firstAttr logging (splitDots topic) with
  | none => (.level 20, joinDots (splitDots topic))
  | some (i, a) => (a, joinDots ((splitDots topic).eraseIdx i))

/-- What the watcher's own logger gets. -/
inductive Shown where
  /-- "Invalid log message" -/
  | invalid
  | logged (level : Int) (topic msg : Text)
deriving DecidableEq, Repr

/-- `'.' in x`. -/
def hasDot : Py → Except Err Bool
  | .bytes _ => .error .typeError
  | .str t => .ok (t.contains '.')

/-- `log_message` (apps/logwatcher.py:86-98). `log.log` with a level that is no number raises
TypeError. -/
def logMessage (logging : Text → Option Attr) (raw : List Py) : Except Err Shown :=
  match raw with
  | [topic, msg] =>
    match hasDot topic with
    | .error e => .error e
    | .ok false => .ok .invalid
    | .ok true =>
      match topic, msg with
      | .str topic, .str msg =>
        if msg = [] then .error .indexError
        else match extractLevel logging (rsplitDot topic).1 with
          | (.other, _) => .error .typeError
          | (.level n, t) =>
            .ok (.logged n t (if msg.getLast? = some '\n' then msg.dropLast else msg))
      | _, _ => .error .typeError
  | _ => .ok .invalid

/-- The constructor and then one message: what becomes of a message that is sent.
(apps/logwatcher.py:46-58, apps/iploggerapp.py:51-64) -/
def watch (logging : Text → Option Attr) (topics : List Text) (raw : List Py) :
    Except Err Shown :=
  match subscribe topics with
  | .error e => .error e
  | .ok _ => logMessage logging raw

/-- The frames as text. -/
def decode : Py → Py
  | .bytes t => .str t
  | .str t => .str t

end IPP.Apps.LogWatch
