/-!
# Model of the controller's port pools (C48)

`traitlets.py:53-99` (`PortList`) and `controller/app.py:442-461, 593-624` (`IPController.next_port`), `util.py:343-359` (`select_random_ports`).
A string is a list of characters. `int(...)` is modelled for an optional sign and decimal digits (with spaces around left out, as well as underscores and non-ASCII digits).
-/
namespace IPP.Ports

/-- value of an ASCII digit — part of `int`, controller/app.py:466-486 -/
def digitVal (c : Char) : Option Nat := if '0' ≤ c ∧ c ≤ '9' then some (c.toNat - '0'.toNat) else none

/-- part of `int`, controller/app.py:466-486 -/
def parseDigits : List Char → Nat → Option Nat
  | [], acc => some acc
  | c :: cs, acc => match digitVal c with
    | none => none
    | some d => parseDigits cs (acc * 10 + d)

/-- `int(s)`; `none`: ValueError — controller/app.py:443-486 -/
def parseInt (s : List Char) : Option Int :=
  match s with
  | [] => none
  | c :: cs =>
    if c = '-' then (if cs = [] then none else (parseDigits cs 0).map (fun n => -(n : Int)))
    else if c = '+' then (if cs = [] then none else (parseDigits cs 0).map (fun n => (n : Int)))
    else (parseDigits (c :: cs) 0).map (fun n => (n : Int))

/-- `s.split(sep)` for one character — controller/app.py:443-486 -/
def split (sep : Char) : List Char → List (List Char)
  | [] => [[]]
  | c :: cs => if c = sep then [] :: split sep cs else match split sep cs with
    | [] => [[c]]
    | w :: ws => (c :: w) :: ws

/-- `s.partition('-')`: first and third component — controller/app.py:443-486 -/
def partition (sep : Char) : List Char → List Char × List Char
  | [] => ([], [])
  | c :: cs => if c = sep then ([], cs) else let r := partition sep cs; (c :: r.1, r.2)

/-- `range(a, b + 1)` — controller/app.py:443-486 -/
def rangeTo (a b : Int) : List Int := (List.range (b + 1 - a).toNat).map (fun k : Nat => a + k)

/-- one comma-separated part — traitlets.py:69-76 -/
def parsePart (r : List Char) : Option (List Int) :=
  let (a, b) := partition '-' r
  match parseInt a with
  | none => none
  | some start => if b = [] then some [start] else match parseInt b with
    | none => none
    | some stop => some (rangeTo start stop)

/-- `PortList.parse_port_range` — traitlets.py:64-77; `none`: ValueError -/
def parsePortRange (s : List Char) : Option (List Int) := ((split ',' s).mapM parsePart).map List.flatten

/-- `PortList.validate` of a string — traitlets.py:85-99; `none`: an error -/
def validate (s : List Char) : Option (List Int) := match parsePortRange s with
  | none => none
  | some l => if l.all (fun p => decide (1 ≤ p ∧ p ≤ 65536)) then some l else none

/-! ## pools -/

/-- controller/app.py:593-624 -/
inductive Pool where
  | client | engine | common
  deriving DecidableEq, Repr

/-- the pools and how much of them is consumed; `randoms`: `_random_ports` of util.py -/
structure St where
  client : List Int
  engine : List Int
  common : List Int
  ci : Nat
  ei : Nat
  pi : Nat
  randoms : List Int
  deriving DecidableEq, Repr

/-- controller/app.py:443-486 -/
def start (client engine common : List Int) : St := { client := client, engine := engine, common := common, ci := 0, ei := 0, pi := 0, randoms := [] }

/-- drawing from the common pool, then an ephemeral port — app.py:612-624; `os`: the port that the loop of `select_random_ports` ends with -/
def nextCommon (s : St) (os : Int) : St × Int := match s.common[s.pi]? with
  | some p => ({ s with pi := s.pi + 1 }, p)
  | none => ({ s with randoms := os :: s.randoms }, os)

/-- `next_port` — app.py:593-624 -/
def next (s : St) (pool : Pool) (os : Int) : St × Int := match pool with
  | .client => match s.client[s.ci]? with
    | some p => ({ s with ci := s.ci + 1 }, p)
    | none => nextCommon s os
  | .engine => match s.engine[s.ei]? with
    | some p => ({ s with ei := s.ei + 1 }, p)
    | none => nextCommon s os
  | .common => nextCommon s os

/-- a sequence of requests, each with the port the system would offer — calls of `next_port`, controller/app.py:593-624 -/
def serve : St → List (Pool × Int) → List Int
  | _, [] => []
  | s, (p, os) :: l => let r := next s p os; r.2 :: serve r.1 l

/-- the state after them — calls of `next_port`, controller/app.py:593-624 -/
def after (s : St) (l : List (Pool × Int)) : St := l.foldl (fun s x => (next s x.1 x.2).1) s

/-- the loop of `select_random_ports(1)` — util.py:343-359: the first port offered by the system that was not selected before; `none`: all the ports in `offers` were -/
def selectRandom (randoms : List Int) (offers : List Int) : Option Int := offers.find? (fun p => p ∉ randoms)

/-- a sequence of requests, each with the ports that the system offers one after the other; `none`: the loop would need more offers. Every request comes with offers, also those that a configured port is left for (they do not matter then). — calls of `next_port`, controller/app.py:593-624 -/
def serveOffers : St → List (Pool × List Int) → Option (List Int)
  | _, [] => some []
  | s, (p, offers) :: l => match selectRandom s.randoms offers with
    | none => none
    | some os => let r := next s p os; (serveOffers r.1 l).map (fun ps => r.2 :: ps)

/-- the deprecated `mux`, `task`, `control`, `iopub` pairs — app.py:442-449: the first port of the pair goes to both pools -/
def assignPair (s : St) (a _b : Int) : St := { s with client := s.client ++ [a], engine := s.engine ++ [a] }

/-- the deprecated `hb` pair — app.py:451-457 -/
def assignHb (s : St) (a b : Int) : St := { s with engine := s.engine ++ [a, b] }

end IPP.Ports
