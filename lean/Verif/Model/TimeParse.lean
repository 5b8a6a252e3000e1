/-!
Model of `time.Parse(time.RFC3339, …)` of Go 1.18, which the program calls for its start time and for the times of requests
(/repo/siggy/src/signode/signode.go:22, /repo/siggy/src/signode/run_sig.go:28). The functions are those of Go's `time/format.go` and `time/time.go`,
specialised to the layout `2006-01-02T15:04:05Z07:00`. A text is a list of characters instead of bytes: nothing that is
accepted has a character of more than one byte. Times are in nanoseconds since 1970-01-01T00:00:00Z.
-/
namespace Verif.TimeParse

/-- `isDigit` (format.go). -/
def isDigit (c : Char) : Bool := decide ('0' ≤ c) && decide (c ≤ '9')

/-- The value of a digit. -/
def dig (c : Char) : Int := (c.toNat : Int) - 48

/-- `leadingInt` of digits (format.go). -/
def digits (s : List Char) : Int := s.foldl (fun x c => 10 * x + dig c) 0

/-- `atoi` (format.go): a sign is allowed, and no digits are the number 0. -/
def atoi (s : List Char) : Option Int :=
  match s with
  | '-' :: r => if r.all isDigit then some (-digits r) else none
  | '+' :: r => if r.all isDigit then some (digits r) else none
  | r => if r.all isDigit then some (digits r) else none

/-- `getnum` (format.go): two digits, or one if `fixed` is false. -/
def getnum (fixed : Bool) : List Char → Option (Int × List Char)
  | [] => none
  | [a] => if isDigit a && !fixed then some (dig a, []) else none
  | a :: b :: r =>
    if !isDigit a then none
    else if !isDigit b then (if fixed then none else some (dig a, b :: r))
    else some (10 * dig a + dig b, r)

/-- `skip` of one character (format.go). -/
def skip (c : Char) : List Char → Option (List Char)
  | [] => none
  | a :: r => if a = c then some r else none

/-- The year (format.go, `stdLongYear`). -/
def year : List Char → Option (Int × List Char)
  | a :: b :: c :: d :: r => if isDigit a then (atoi [a, b, c, d]).map fun y => (y, r) else none
  | _ => none

/-- A number in a range. -/
def ranged (lo hi : Int) (x : Option (Int × List Char)) : Option (Int × List Char) :=
  x.bind fun p => if lo ≤ p.1 ∧ p.1 < hi then some p else none

/-- `parseNanoseconds` (format.go): digits after the ninth are not looked at. -/
def nanoseconds (ds : List Char) : Int := digits (ds.take 9) * 10 ^ (9 - (ds.take 9).length)

/-- The fraction of the second, which is not in the layout but read if it is there (format.go, `stdZeroSecond`). -/
def fraction : List Char → Int × List Char
  | c :: d :: r =>
    if (c = '.' ∨ c = ',') ∧ isDigit d = true then (nanoseconds (d :: r.takeWhile isDigit), r.dropWhile isDigit) else (0, c :: d :: r)
  | s => (0, s)

/-- The zone (format.go, `stdISO8601ColonTZ`), in seconds east of UTC. -/
def zone : List Char → Option (Int × List Char)
  | 'Z' :: r => some (0, r)
  | sign :: h1 :: h2 :: c :: m1 :: m2 :: r =>
    if c ≠ ':' then none
    else (atoi [h1, h2]).bind fun hr => (atoi [m1, m2]).bind fun mm =>
      if sign = '+' then some ((hr * 60 + mm) * 60, r) else if sign = '-' then some (-((hr * 60 + mm) * 60), r) else none
  | _ => none

/-- `isLeap` (time.go). -/
def isLeap (y : Int) : Bool := decide (y % 4 = 0) && (decide (y % 100 ≠ 0) || decide (y % 400 = 0))

/-- `daysBefore` (time.go). -/
def daysBefore : List Int := [0, 31, 59, 90, 120, 151, 181, 212, 243, 273, 304, 334, 365]

/-- The entry of a month. -/
def before (m : Int) : Int := daysBefore.getD m.toNat 0

/-- `daysIn` (time.go). -/
def daysIn (m y : Int) : Int := if m = 2 ∧ isLeap y = true then 29 else before m - before (m - 1)

/-- `absoluteZeroYear` (time.go). -/
def absoluteZeroYear : Int := -292277022399

/-- `daysSinceEpoch` (time.go): the days from the absolute zero year. -/
def daysSinceEpoch (y : Int) : Int :=
  let y := y - absoluteZeroYear
  let n := y / 400
  let y := y - 400 * n
  let d := 146097 * n
  let n := y / 100
  let y := y - 100 * n
  let d := d + 36524 * n
  let n := y / 4
  let y := y - 4 * n
  let d := d + 1461 * n
  d + 365 * y

/-- `absoluteToInternal + internalToUnix` (time.go), in days: `(absoluteZeroYear - 1) * 365.2425` and the days from the year 1 to 1970. -/
def absoluteToUnix : Int := (absoluteZeroYear - 1) * 3652425 / 10000 - (1969 * 365 + 1969 / 4 - 1969 / 100 + 1969 / 400)

/-- The days in `Date` (time.go), from 1970. -/
def unixDay (y m d : Int) : Int :=
  daysSinceEpoch y + before (m - 1) + (if isLeap y = true ∧ 3 ≤ m then 1 else 0) + (d - 1) + absoluteToUnix

/-- `Date` in UTC, with the zone taken off (time.go, the end of `parse` in format.go). -/
def dateTime (y m d h mi s ns zo : Int) : Int := (unixDay y m d * 86400 + h * 3600 + mi * 60 + s - zo) * 1000000000 + ns

/-- `parse` with the layout of RFC 3339 (format.go). -/
def parseChars (t : List Char) : Option Int := do
  let (y, t) ← year t
  let t ← skip '-' t
  let (mo, t) ← ranged 1 13 (getnum true t)
  let t ← skip '-' t
  let (d, t) ← getnum true t
  let t ← skip 'T' t
  let (h, t) ← ranged 0 24 (getnum false t)
  let t ← skip ':' t
  let (mi, t) ← ranged 0 60 (getnum true t)
  let t ← skip ':' t
  let (s, t) ← ranged 0 60 (getnum true t)
  let (ns, t) := fraction t
  let (zo, t) ← zone t
  if t ≠ [] then none
  else if d < 1 ∨ daysIn mo y < d then none
  else some (dateTime y mo d h mi s ns zo)

/-- `time.Parse` with the layout of RFC 3339. -/
def parse (t : String) : Option Int := parseChars t.toList

end Verif.TimeParse
