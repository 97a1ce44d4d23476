/-!
# Model of `json.dumps` (defaults) and `json.loads` as used by cluster/shellcmd.py:59-65

A Python `str` is a list of code points, which may include lone surrogates (file names decoded with `surrogateescape`). Floats, NaN and non-string keys are not modelled (they do not occur in commands); `loads` refuses floats here. Recursion limits are not modelled.
-/
namespace IPP.Shell

abbrev Str := List Nat

/-- `l!"abc"` is the list of the code points of a string literal -/
macro:max "l!" s:str : term => do
  let cs := s.getString.toList.map fun c => Lean.Syntax.mkNumLit (toString c.toNat)
  `(([$(cs.toArray),*] : List Nat))

/-- values of commands -/
inductive J where
  | null
  | bool (b : Bool)
  | num (i : Int)
  | str (s : Str)
  | arr (l : List J)
  | obj (l : List (Str × J))

/-! ## dumps -/

/-- part of `json.dumps`, shellcmd.py:59-65 -/
def hexDigit (n : Nat) : Nat := if n < 10 then 48 + n else 87 + n
/-- `'\\u{0:04x}'` — part of `json.dumps`, shellcmd.py:59-65 -/
def uesc (n : Nat) : Str := [92, 117, hexDigit (n / 4096 % 16), hexDigit (n / 256 % 16), hexDigit (n / 16 % 16), hexDigit (n % 16)]

/-- `py_encode_basestring_ascii`: one character — part of `json.dumps`, shellcmd.py:59-65 -/
def escChar (c : Nat) : Str :=
  if c = 34 then [92, 34] else if c = 92 then [92, 92] else if c = 10 then [92, 110] else if c = 13 then [92, 114] else if c = 9 then [92, 116]
  else if c = 12 then [92, 102] else if c = 8 then [92, 98]
  else if 32 ≤ c ∧ c ≤ 126 then [c]
  else if c < 65536 then uesc c
  else uesc (55296 + (c - 65536) / 1024 % 1024) ++ uesc (56320 + (c - 65536) % 1024)

/-- part of `json.dumps`, shellcmd.py:59-65 -/
def dumpStr (s : Str) : Str := 34 :: s.flatMap escChar ++ [34]

/-- decimal digits — part of `json.dumps`, shellcmd.py:59-65 -/
def dec (n : Nat) : Str := if n < 10 then [48 + n] else dec (n / 10) ++ [48 + n % 10]
decreasing_by omega

/-- part of `json.dumps`, shellcmd.py:59-65 -/
def dumpInt : Int → Str
  | .ofNat n => dec n
  | .negSucc n => 45 :: dec (n + 1)

/-- elements joined with `", "` — part of `json.dumps`, shellcmd.py:59-65 -/
def joinComma : List Str → Str
  | [] => []
  | [x] => x
  | x :: y :: r => x ++ [44, 32] ++ joinComma (y :: r)

mutual
/-- `json.dumps(v)` — as called by shellcmd.py:59-65 -/
def dumps : J → Str
  | .null => l!"null"
  | .bool true => l!"true"
  | .bool false => l!"false"
  | .num i => dumpInt i
  | .str s => dumpStr s
  | .arr l => [91] ++ joinComma (dumpsArr l) ++ [93]
  | .obj l => [123] ++ joinComma (dumpsObj l) ++ [125]
/-- part of `json.dumps`, shellcmd.py:59-65 -/
def dumpsArr : List J → List Str
  | [] => []
  | v :: l => dumps v :: dumpsArr l
/-- part of `json.dumps`, shellcmd.py:59-65 -/
def dumpsObj : List (Str × J) → List Str
  | [] => []
  | (k, v) :: l => (dumpStr k ++ [58, 32] ++ dumps v) :: dumpsObj l
end

/-! ## loads -/

/-- part of `json.loads`, shellcmd.py:28-45 -/
def hexVal (c : Nat) : Option Nat :=
  if 48 ≤ c ∧ c ≤ 57 then some (c - 48) else if 97 ≤ c ∧ c ≤ 102 then some (c - 87) else if 65 ≤ c ∧ c ≤ 70 then some (c - 55) else none

/-- `_decode_uXXXX`: four hexadecimal digits — part of `json.loads`, shellcmd.py:28-45 -/
def hex4 : Str → Option (Nat × Str)
  | a :: b :: c :: d :: rest => do
    let a ← hexVal a
    let b ← hexVal b
    let c ← hexVal c
    let d ← hexVal d
    return (a * 4096 + b * 256 + c * 16 + d, rest)
  | _ => none

/-- `BACKSLASH` — part of `json.loads`, shellcmd.py:28-45 -/
def backslash (c : Nat) : Option Nat :=
  if c = 34 then some 34 else if c = 92 then some 92 else if c = 47 then some 47 else if c = 98 then some 8 else if c = 102 then some 12
  else if c = 110 then some 10 else if c = 114 then some 13 else if c = 116 then some 9 else none

/-- after `\uXXXX` with value `u`: a low surrogate that follows a high one is combined with it — part of `json.loads`, shellcmd.py:28-45 -/
def combine (u : Nat) (rest : Str) : Option (Nat × Str) :=
  if 55296 ≤ u ∧ u ≤ 56319 then
    match rest with
    | 92 :: 117 :: rest2 => do
      let (u2, rest3) ← hex4 rest2
      if 56320 ≤ u2 ∧ u2 ≤ 57343 then return (65536 + ((u - 55296) * 1024 + (u2 - 56320)), rest3) else return (u, rest)
    | _ => some (u, rest)
  else some (u, rest)

/-- `py_scanstring` (strict), after the opening quote; `fuel` bounds the number of characters — part of `json.loads`, shellcmd.py:28-45 -/
def scan : Nat → Str → Option (Str × Str)
  | 0, _ => none
  | _ + 1, [] => none
  | fuel + 1, c :: rest =>
    if c = 34 then some ([], rest)
    else if c = 92 then
      match rest with
      | [] => none
      | 117 :: rest => do
        let (u, rest) ← hex4 rest
        let (u, rest) ← combine u rest
        let (s, r) ← scan fuel rest
        return (u :: s, r)
      | e :: rest => do
        let v ← backslash e
        let (s, r) ← scan fuel rest
        return (v :: s, r)
    else if c < 32 then none
    else do
      let (s, r) ← scan fuel rest
      return (c :: s, r)

/-- part of `json.loads`, shellcmd.py:28-45 -/
def skipWs : Str → Str
  | c :: r => if c = 32 ∨ c = 9 ∨ c = 10 ∨ c = 13 then skipWs r else c :: r
  | [] => []

/-- part of `json.loads`, shellcmd.py:28-45 -/
def isDigit (c : Nat) : Bool := decide (48 ≤ c ∧ c ≤ 57)

/-- part of `json.loads`, shellcmd.py:28-45 -/
def natOf (ds : Str) : Nat := ds.foldl (fun n d => n * 10 + (d - 48)) 0

/-- `(-?(?:0|[1-9]\d*))`, without the sign; a fraction or exponent makes a float, which is not modelled — part of `json.loads`, shellcmd.py:28-45 -/
def scanNat (s : Str) : Option (Nat × Str) :=
  match s with
  | 48 :: rest => fin 0 rest
  | c :: _ => if isDigit c then fin (natOf (s.takeWhile isDigit)) (s.dropWhile isDigit) else none
  | [] => none
where
  fin (n : Nat) (rest : Str) : Option (Nat × Str) :=
    match rest with
    | 46 :: _ | 101 :: _ | 69 :: _ => none
    | _ => some (n, rest)

/-- `str.startswith` — part of `json.loads`, shellcmd.py:28-45 -/
def stripPrefix : Str → Str → Option Str
  | [], s => some s
  | _ :: _, [] => none
  | p :: ps, c :: cs => if p = c then stripPrefix ps cs else none

mutual
/-- `scan_once`; `fuel` bounds the nesting — part of `json.loads`, shellcmd.py:28-45 -/
def parse : Nat → Str → Option (J × Str)
  | 0, _ => none
  | fuel + 1, s =>
    match s with
    | [] => none
    | 34 :: rest => (scan (rest.length + 1) rest).map fun (s, r) => (.str s, r)
    | 123 :: rest =>
      match skipWs rest with
      | 125 :: r => some (.obj [], r)
      | r => (parseMembers fuel r).map fun (l, r) => (.obj l, r)
    | 91 :: rest =>
      match skipWs rest with
      | 93 :: r => some (.arr [], r)
      | r => (parseElems fuel r).map fun (l, r) => (.arr l, r)
    | 45 :: rest => (scanNat rest).map fun (n, r) => (.num (-(n : Int)), r)
    | _ =>
      match stripPrefix (l!"null") s with
      | some r => some (.null, r)
      | none => match stripPrefix (l!"true") s with
        | some r => some (.bool true, r)
        | none => match stripPrefix (l!"false") s with
          | some r => some (.bool false, r)
          | none => (scanNat s).map fun (n, r) => (.num n, r)
/-- `JSONArray` after the bracket — part of `json.loads`, shellcmd.py:28-45 -/
def parseElems : Nat → Str → Option (List J × Str)
  | 0, _ => none
  | fuel + 1, s => do
    let (v, r) ← parse fuel s
    match skipWs r with
    | 93 :: r => return ([v], r)
    | 44 :: r => do
      let (l, r) ← parseElems fuel (skipWs r)
      return (v :: l, r)
    | _ => none
/-- `JSONObject` after the brace — part of `json.loads`, shellcmd.py:28-45 -/
def parseMembers : Nat → Str → Option (List (Str × J) × Str)
  | 0, _ => none
  | fuel + 1, s =>
    match s with
    | 34 :: rest => do
      let (k, r) ← scan (rest.length + 1) rest
      match skipWs r with
      | 58 :: r => do
        let (v, r) ← parse fuel (skipWs r)
        match skipWs r with
        | 125 :: r => return ([(k, v)], r)
        | 44 :: r => do
          let (l, r) ← parseMembers fuel (skipWs r)
          return ((k, v) :: l, r)
        | _ => none
      | _ => none
    | _ => none
end

/-- `json.loads`: nothing but white space may follow. (Of equal keys of an object the last one counts; all are kept here.) — as called by the template, shellcmd.py:28-45 -/
def loads (s : Str) : Option J :=
  match parse (s.length + 1) (skipWs s) with
  | some (v, r) => if skipWs r = [] then some v else none
  | none => none

end IPP.Shell
