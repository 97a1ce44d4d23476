import Verif.Client.Output
/-!
# Showing the output of tasks

ipyparallel/client/asyncresult.py:897-1057 (`_display_stream`, `_display_single_result`, `display_outputs`).

Simplified: `print(s, file=f, end="")` appends `s` to what has been shown, with a mark that says which file it went to; rich output, values and the label `[output:eid]` are items of their own
(`publish_display_data`, `display`); the representation of a value is not modelled.
-/
namespace IPP.Display
open IPP.Output (Text)

/-- one thing that is shown — client/asyncresult.py:887-941 -/
inductive Item where
  /-- text printed to `sys.stdout` or (`err`) `sys.stderr` -/
  | print (err : Bool) (s : Text)
  /-- `_raw_text(f'[output:{eid}]')` -/
  | label (eid : Nat)
  /-- `_republish_displaypub` -/
  | rich (d : Nat)
  /-- `display(r)`: the result of a task -/
  | value (r : Nat)
  /-- the traceback of a task (only when streaming) -/
  | error (e : Nat)
deriving DecidableEq, Repr

/-- The attributes `_last_display_prefix` (empty at first) and `_stream_trailing_newline` (True at first), asyncresult.py:64-65, and what has been shown so far. -/
structure Screen where
  last : Text := []
  newline : Bool := true
  items : List Item := []
deriving DecidableEq, Repr

/-- `_display_stream(text, prefix, file)` — asyncresult.py:897-924 -/
def displayStream (s : Screen) (text pfx : Text) (err : Bool) : Screen :=
  if text = [] then s
  else
    let pfx' := if pfx = s.last then [] else pfx -- the same prefix is not shown again (an empty one: nothing to show)
    let last := if pfx' ≠ [] then pfx' else s.last
    let pre : Text := if pfx' ≠ [] ∧ s.newline = false then ['\n'] else []
    let sep : Text := if pfx' ≠ [] then ['\n'] else []
    { last := last, newline := text.getLast? = some '\n', items := s.items ++ [.print err (pre ++ pfx' ++ sep ++ text)] }

/-- `f'[stdout:{eid}] '` and `f'[stderr:{eid}] '` — client/asyncresult.py:897-925 -/
def pfx (err : Bool) (eid : Nat) : Text := ['[', 's', 't', 'd'] ++ (if err then ['e', 'r', 'r'] else ['o', 'u', 't']) ++ [':'] ++ Nat.toDigits 10 eid ++ [']', ' ']

/-- what is known of one task of the result: `self.engine_id`, `self.stdout`, `self.stderr`, `self.outputs`, `self.execute_result` and `self.get(return_exceptions=True)` at one place — client/asyncresult.py:943-1052 -/
structure Task where
  eid : Nat
  stdout : Text := []
  stderr : Text := []
  outputs : List Nat := []
  /-- `execute_result is not None`, and the result -/
  result : Option Nat := none
deriving DecidableEq, Repr

/-- client/asyncresult.py:887-941 -/
def show1 (s : Screen) (i : Item) : Screen := { s with items := s.items ++ [i] }
/-- client/asyncresult.py:887-941 -/
def showAll (s : Screen) (l : List Item) : Screen := { s with items := s.items ++ l }

/-- `_display_single_result` — asyncresult.py:926-940. `ipython`: `get_ipython() is not None`. -/
def displaySingle (ipython resultOnly : Bool) (t : Task) (s : Screen) : Screen :=
  let s := if resultOnly then s else displayStream (displayStream s t.stdout [] false) t.stderr [] true
  if !ipython then s
  else
    let s := if resultOnly then s else showAll s (t.outputs.map .rich)
    match t.result with | some r => show1 s (.value r) | none => s

/-- client/asyncresult.py:943-1052 -/
inductive GroupBy where
  | type | engine | order
deriving DecidableEq, Repr

/-- the body of the loop for `groupby == "engine"` — asyncresult.py:989-1009 -/
def engineStep (ipython resultOnly : Bool) (s : Screen) (t : Task) : Screen :=
  let s := if resultOnly then s else displayStream (displayStream s t.stdout (pfx false t.eid) false) t.stderr (pfx true t.eid) true
  if !ipython then s
  else
    let s := if (t.outputs ≠ [] ∧ resultOnly = false) ∨ t.result.isSome then show1 s (.label t.eid) else s
    let s := if resultOnly then s else showAll s (t.outputs.map .rich)
    match t.result with | some r => show1 s (.value r) | none => s

/-- `{eid: outputs for eid, outputs in zip(targets, output_lists)}[eid]`: the last task of the engine counts — client/asyncresult.py:943-1052 -/
def outputDict (ts : List Task) (eid : Nat) : List Nat := ((ts.reverse.find? fun t => t.eid = eid).map (·.outputs)).getD []

/-- one round of asyncresult.py:1029-1035: for each target, its `i`-th output, if it has as many as the one with most -/
def orderRound (ts : List Task) (n i : Nat) : List Item :=
  ts.flatMap fun t => let os := outputDict ts t.eid
    if n ≤ os.length then [.label t.eid, .rich (os.getD i 0)] else []

/-- `max(len(outputs) for outputs in output_lists)` — client/asyncresult.py:943-1052 -/
def maxOutputs (ts : List Task) : Nat := ts.foldl (fun n t => max n t.outputs.length) 0

/-- the body of asyncresult.py:1047-1049 -/
def valueStep (s : Screen) (t : Task) : Screen := match t.result with | some r => show1 s (.value r) | none => s

/-- the body of asyncresult.py:1038-1042 -/
def richStep (s : Screen) (t : Task) : Screen := showAll (if t.outputs ≠ [] then show1 s (.label t.eid) else s) (t.outputs.map .rich)

/-- `display_outputs(groupby, result_only)` of a result that is not a single one — asyncresult.py:942-1057.
Simplified: a result without tasks (with `order` and IPython `max()` raises ValueError then). -/
def displayOutputs (ipython resultOnly : Bool) (g : GroupBy) (ts : List Task) (s : Screen) : Screen :=
  match g with
  | .engine => ts.foldl (engineStep ipython resultOnly) s
  | _ =>
    let s := if resultOnly then s else ts.foldl (fun s t => displayStream s t.stdout (pfx false t.eid) false) s
    let s := if resultOnly then s else ts.foldl (fun s t => displayStream s t.stderr (pfx true t.eid) true) s
    if !ipython then s
    else
      let s := if resultOnly then s
        else if g = .order then showAll s ((List.range (maxOutputs ts)).flatMap (orderRound ts (maxOutputs ts)))
        else ts.foldl richStep s
      ts.foldl valueStep s

/-! ## Specification: a page of blocks -/

/-- A piece of text from an engine's stdout or stderr. -/
structure Piece where
  err : Bool
  eid : Nat
  text : Text
deriving DecidableEq, Repr

/-- two pieces come from the same stream of the same engine -/
def Piece.same (a b : Piece) : Bool := a.err = b.err ∧ a.eid = b.eid

/-- Pieces of the same stream that follow each other make one block. -/
def blocks : List Piece → List Piece
  | [] => []
  | p :: l => match blocks l with
    | [] => [p]
    | q :: r => if p.same q then { p with text := p.text ++ q.text } :: r else p :: q :: r

/-- a block as it is shown: the header on a line of its own, then the text -/
def blockText (p : Piece) : Text := "[std".toList ++ (if p.err then "err:" else "out:").toList ++ Nat.toDigits 10 p.eid ++ "] \n".toList ++ p.text

/-- blocks below each other, each header at the beginning of a line -/
def page : List Piece → Text
  | [] => []
  | [p] => blockText p
  | p :: l => blockText p ++ (if p.text.getLast? = some '\n' then [] else ['\n']) ++ page l

/-- all text on the screen, of both files -/
def text : List Item → Text
  | [] => []
  | .print _ s :: l => s ++ text l
  | _ :: l => text l

/-- what is shown of one stream of one engine -/
def bodyOf (err : Bool) (eid : Nat) (l : List Piece) : Text := l.flatMap fun p => if p.err = err ∧ p.eid = eid then p.text else []

/-- what is shown besides the text -/
def others (l : List Item) : List Item := l.filter fun | .print _ _ => false | _ => true

/-- the text of the tasks in the order in which it is to be shown: all stdout, then all stderr; or, for `engine`, task by task -/
def said (g : GroupBy) (ts : List Task) : List Piece :=
  let out (t : Task) : Piece := ⟨false, t.eid, t.stdout⟩
  let err (t : Task) : Piece := ⟨true, t.eid, t.stderr⟩
  ((match g with | .engine => ts.flatMap fun t => [out t, err t] | _ => ts.map out ++ ts.map err)).filter fun p => p.text ≠ []

/-- the rich outputs shown, each with the label (`cur` at first) under which it is shown -/
def labelled (cur : Option Nat) : List Item → List (Option Nat × Nat)
  | [] => []
  | .label e :: l => labelled (some e) l
  | .rich d :: l => (cur, d) :: labelled cur l
  | _ :: l => labelled cur l

/-- the values shown -/
def values : List Item → List Nat
  | [] => []
  | .value r :: l => r :: values l
  | _ :: l => values l

end IPP.Display
