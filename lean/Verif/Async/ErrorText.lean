/-!
# The text of errors

`RemoteError`, `CompositeError`, `AlreadyDisplayedError` (error.py) as they print and as
`raise_exception` takes them apart, and the errors printed while output is streamed
(client/asyncresult.py). Text is a list of characters. `splitlines` is a parameter: any function
from texts to lines. The info of an engine has an id and a method, or is empty, as engines send it
(engine/kernel.py:95-103, 198, 218).
-/
namespace IPP.Async.ErrorText

abbrev Text := List Char

/-- `engine_info`: nothing, or `engine_id` and `method`. -/
abbrev Info := Option (Text × Text)

/-- An element of `elist`: `(ename, evalue, traceback, engine_info)`. -/
structure Err where
  ename : Text
  evalue : Text
  /-- `none` and the empty text are both false -/
  traceback : Option Text
  info : Info
deriving DecidableEq, Repr

/-- `_get_engine_str` (error.py:95-100). -/
def label : Info → Text
  | none => "[Engine Exception]".toList
  | some (e, m) => '[' :: e ++ ':' :: m ++ [']']

/-- `tb or 'No traceback available'`. -/
def orNone : Option Text → Text
  | none => "No traceback available".toList
  | some [] => "No traceback available".toList
  | some t => t

/-- `RemoteError.__str__` (error.py:90-93). -/
def Err.str (e : Err) : Text := label e.info ++ ' ' :: e.ename ++ ':' :: ' ' :: e.evalue

/-- `RemoteError.render_traceback` (error.py:102-106). -/
def Err.render (splitlines : Text → List Text) (e : Err) : List Text :=
  label e.info :: splitlines (orNone e.traceback)

/-- `CompositeError.tb_limit` (error.py:137). -/
def tbLimit : Nat := 4

/-- The loop of `CompositeError.__str__`. -/
def strLoop (s : Text) : List Err → Text
  | [] => s
  | e :: l => strLoop (s ++ '\n' :: label e.info ++ e.ename ++ ':' :: ' ' :: e.evalue) l

/-- `CompositeError.__str__` (error.py:155-162). -/
def compositeStr (msg : Text) (elist : List Err) : Text :=
  let s := strLoop msg (elist.take tbLimit)
  if elist.length > tbLimit then
    s ++ "\n.... ".toList ++ Nat.toDigits 10 (elist.length - tbLimit) ++
      " more exceptions ...".toList
  else s

/-- The loop of `CompositeError.render_traceback`. -/
def renderLoop (splitlines : Text → List Text) (lines : List Text) : List Err → List Text
  | [] => lines
  | e :: l => renderLoop splitlines
      (lines ++ [label e.info ++ [':']] ++ splitlines (orNone e.traceback) ++ [[]]) l

/-- `elist[i]`; `none`: IndexError. -/
def pyIndex (l : List Err) (i : Int) : Option Err :=
  if 0 ≤ i then l[i.toNat]?
  else if -i ≤ l.length then l[l.length - (-i).toNat]? else none

/-- `CompositeError.render_traceback` (error.py:167-191); `none`: IndexError. -/
def compositeRender (splitlines : Text → List Text) (elist : List Err) (excid : Option Int) :
    Option (List Text) :=
  match excid with
  | none =>
    let lines := renderLoop splitlines [] (elist.take tbLimit)
    some (if elist.length > tbLimit then
      lines ++ ["... ".toList ++ Nat.toDigits 10 (elist.length - tbLimit) ++
        " more exceptions ...".toList]
    else lines)
  | some i => match pyIndex elist i with
    | none => none
    | some e => some ((label e.info ++ [':']) :: splitlines (orNone e.traceback))

/-- `CompositeError.raise_exception` (error.py:196-202); `none`: IndexError. -/
def raiseException (elist : List Err) (i : Int) : Option Err := pyIndex elist i

/-- The errors that arrive while output is streamed: what each prints. `n`: `_streamed_errors`.
(client/asyncresult.py:181-197) -/
def streamErrors (splitlines : Text → List Text) (n : Nat) : List Err → List (List Text)
  | [] => []
  | e :: l =>
    (if n + 1 ≤ tbLimit then e.render splitlines else [e.str]) :: streamErrors splitlines (n + 1) l

end IPP.Async.ErrorText
