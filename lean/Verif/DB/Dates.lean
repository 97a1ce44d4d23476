/-!
# Dates in JSON

`extract_dates` and what it gets: the records of the SQLite database (columns of type `dict`),
the queries the hub receives, and the headers of fetched results.

JSON itself (`json.dumps`, `json.loads`) is taken to keep everything that has a form in JSON.
`tzlocal()` is a function from a time without a zone to its offset in minutes; offsets are
whole minutes. Digits are the ASCII digits.
-/
namespace IPP.DB.Dates

abbrev Text := List Char

/-- A `datetime`; `off` is the offset from UTC in minutes, `none` for a naive one. -/
structure Stamp where
  year : Nat
  month : Nat
  day : Nat
  hour : Nat
  minute : Nat
  second : Nat
  micro : Nat
  off : Option Int
deriving DecidableEq, Repr

mutual
/-- Values in messages and records: JSON, and datetimes. -/
inductive J where
  | null
  | bool (b : Bool)
  | num (n : Int)
  | str (s : Text)
  | date (d : Stamp)
  | list (l : JL)
  | dict (l : JD)
inductive JL where
  | nil
  | cons (j : J) (l : JL)
inductive JD where
  | nil
  | cons (k : Text) (j : J) (l : JD)
end

/-! ## Reading -/

def isDigit (c : Char) : Bool := '0' ≤ c && c ≤ '9'
def digitVal (c : Char) : Nat := c.toNat - 48

/-- The number that a text of digits is. -/
def value (t : Text) : Nat := t.foldl (fun a c => a * 10 + digitVal c) 0

/-- `\d{n}`. -/
def readDigits : Nat → Text → Option (Text × Text)
  | 0, r => some ([], r)
  | _ + 1, [] => none
  | n + 1, c :: r =>
    if isDigit c then (readDigits n r).map (fun p => (c :: p.1, p.2)) else none

/-- One character. -/
def lit (c : Char) : Text → Option Text
  | [] => none
  | x :: r => if x = c then some r else none

/-- `$`: at the end, or before a newline at the end. -/
def ends (r : Text) : Bool := r == [] || r == ['\n']

/-- `(\.\d{1,6})?`, as microseconds. -/
def fraction (r : Text) : Option (Nat × Text) :=
  match lit '.' r with
  | none => some (0, r)
  | some r =>
    let ds := (r.takeWhile isDigit).take 6
    if ds = [] then none
    else some (value ds * 10 ^ (6 - ds.length), r.drop ds.length)

/-- `(Z|([\+\-]\d{2}:?\d{2}))?$`, as an offset in minutes. -/
def zone (r : Text) : Option (Option Int) :=
  if ends r then some none
  else match r with
    | [] => none
    | c :: r =>
      if c = 'Z' then if ends r then some (some 0) else none
      else if c = '+' ∨ c = '-' then
        match readDigits 2 r with
        | none => none
        | some (h, r) =>
          match readDigits 2 ((lit ':' r).getD r) with
          | none => none
          | some (m, r) =>
            if ends r then
              some (some (if c = '+' then ((value h * 60 + value m : Nat) : Int)
                else -((value h * 60 + value m : Nat) : Int)))
            else none
      else none

/-- `ISO8601_PAT.match(s)` with the fields that `dateutil` reads from a match; `none`: no match.
(util.py:543-546, 566) -/
def pat (s : Text) : Option Stamp :=
  (readDigits 4 s).bind fun (y, r) => (lit '-' r).bind fun r =>
  (readDigits 2 r).bind fun (mo, r) => (lit '-' r).bind fun r =>
  (readDigits 2 r).bind fun (da, r) => (lit 'T' r).bind fun r =>
  (readDigits 2 r).bind fun (h, r) => (lit ':' r).bind fun r =>
  (readDigits 2 r).bind fun (mi, r) => (lit ':' r).bind fun r =>
  (readDigits 2 r).bind fun (se, r) => (fraction r).bind fun (us, r) =>
  (zone r).map fun off =>
    { year := value y, month := value mo, day := value da, hour := value h,
      minute := value mi, second := value se, micro := us, off := off }

def leap (y : Nat) : Bool := y % 4 == 0 && (y % 100 != 0 || y % 400 == 0)

def daysIn (y m : Nat) : Nat :=
  if m = 2 then if leap y then 29 else 28
  else if m = 4 ∨ m = 6 ∨ m = 9 ∨ m = 11 then 30 else 31

/-- What `datetime(...)` accepts. -/
def Stamp.valid (d : Stamp) : Bool :=
  1 ≤ d.year && d.year ≤ 9999 && 1 ≤ d.month && d.month ≤ 12 && 1 ≤ d.day &&
  d.day ≤ daysIn d.year d.month && d.hour < 24 && d.minute < 60 && d.second < 60 &&
  d.micro < 1000000

/-- `ensure_timezone`, `_ensure_tzinfo` (util.py:528-537, 549-559). -/
def aware (loc : Stamp → Int) (d : Stamp) : Stamp := { d with off := some (d.off.getD (loc d)) }

/-- `ValueError` of `dateutil_parse`. -/
inductive Err where
  | valueError
deriving DecidableEq, Repr

/-- `_parse_date` for a string (util.py:562-575). -/
def parseDate (loc : Stamp → Int) (s : Text) : Except Err J :=
  match pat s with
  | none => .ok (.str s)
  | some d => if d.valid then .ok (.date (aware loc d)) else .error .valueError

mutual
/-- `extract_dates` (util.py:578-590). -/
def extract (loc : Stamp → Int) : J → Except Err J
  | .str s => parseDate loc s
  | .list l => (extractL loc l).map .list
  | .dict l => (extractD loc l).map .dict
  | .null => .ok .null
  | .bool b => .ok (.bool b)
  | .num n => .ok (.num n)
  | .date d => .ok (.date d)
def extractL (loc : Stamp → Int) : JL → Except Err JL
  | .nil => .ok .nil
  | .cons j l => match extract loc j with
    | .error e => .error e
    | .ok j => (extractL loc l).map (.cons j)
def extractD (loc : Stamp → Int) : JD → Except Err JD
  | .nil => .ok .nil
  | .cons k j l => match extract loc j with
    | .error e => .error e
    | .ok j => (extractD loc l).map (.cons k j)
end

/-! ## Writing -/

/-- `n` in `k` digits. -/
def pad : Nat → Nat → Text
  | 0, _ => []
  | k + 1, n => pad k (n / 10) ++ [Char.ofNat (48 + n % 10)]

/-- The end of `isoformat()`, with `+00:00` replaced by `Z`. -/
def zoneText : Option Int → Text
  | none => []
  | some o =>
    if o = 0 then ['Z']
    else (if o < 0 then '-' else '+') :: (pad 2 (o.natAbs / 60) ++ ':' :: pad 2 (o.natAbs % 60))

/-- `isoformat().replace('+00:00', 'Z')` (jupyter_client's `json_default`). -/
def iso (d : Stamp) : Text :=
  pad 4 d.year ++ '-' :: (pad 2 d.month ++ '-' :: (pad 2 d.day ++ 'T' :: (pad 2 d.hour ++
    ':' :: (pad 2 d.minute ++ ':' :: (pad 2 d.second ++
      ((if d.micro = 0 then [] else '.' :: pad 6 d.micro) ++ zoneText d.off))))))

mutual
/-- `json.dumps(obj, default=json_default)` followed by `json.loads`: dates are strings. A naive
datetime is taken as local time. (controller/sqlitedb.py:58-59) -/
def encode (loc : Stamp → Int) : J → J
  | .date d => .str (iso (aware loc d))
  | .list l => .list (encodeL loc l)
  | .dict l => .dict (encodeD loc l)
  | .null => .null
  | .bool b => .bool b
  | .num n => .num n
  | .str s => .str s
def encodeL (loc : Stamp → Int) : JL → JL
  | .nil => .nil
  | .cons j l => .cons (encode loc j) (encodeL loc l)
def encodeD (loc : Stamp → Int) : JD → JD
  | .nil => .nil
  | .cons k j l => .cons k (encode loc j) (encodeD loc l)
end

/-- A column of type `dict` as it is read back (controller/sqlitedb.py:58-69). -/
def stored (loc : Stamp → Int) (j : J) : Except Err J := extract loc (encode loc j)

/-- A column of the rows that a SELECT returns: the converter is applied to every row, and one
that raises ends the query (controller/sqlitedb.py:262, 450-456). -/
def readRows (loc : Stamp → Int) : List J → Except Err (List J)
  | [] => .ok []
  | j :: l => match stored loc j with
    | .error e => .error e
    | .ok j => (readRows loc l).map (j :: ·)

end IPP.DB.Dates
