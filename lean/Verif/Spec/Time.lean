import Mathlib.Logic.Function.Iterate

/-!
Dates and times as RFC 3339 writes them. The calendar is given by which day follows which; a time by the number of days that
its date is after the first of January 1970.
-/
namespace Verif.Spec.Time

/-- A date: year, month and day. -/
structure Date where
  y : Int
  m : Int
  d : Int
  deriving DecidableEq

/-- Leap years of the Gregorian calendar. -/
def Leap (y : Int) : Prop := 4 ∣ y ∧ (100 ∣ y → 400 ∣ y)

instance (y : Int) : Decidable (Leap y) := inferInstanceAs (Decidable (_ ∧ _))

/-- The last day of a month. -/
def last (y m : Int) : Int :=
  if m = 2 then (if Leap y then 29 else 28) else if m = 4 ∨ m = 6 ∨ m = 9 ∨ m = 11 then 30 else 31

/-- The date exists. -/
def Date.Exists (x : Date) : Prop := 1 ≤ x.m ∧ x.m ≤ 12 ∧ 1 ≤ x.d ∧ x.d ≤ last x.y x.m

/-- The next day. -/
def Date.next (x : Date) : Date :=
  if x.d < last x.y x.m then ⟨x.y, x.m, x.d + 1⟩ else if x.m < 12 then ⟨x.y, x.m + 1, 1⟩ else ⟨x.y + 1, 1, 1⟩

def epoch : Date := ⟨1970, 1, 1⟩

/-- The date is `n` days after the epoch, or `-n` days before it. -/
def DaysAfter (x : Date) (n : Int) : Prop :=
  (0 ≤ n → Date.next^[n.toNat] epoch = x) ∧ (n ≤ 0 → Date.next^[(-n).toNat] x = epoch)

/-- A zone: `Z`, or a sign (true for `-`), hours and minutes. -/
inductive Zone where
  | utc
  | offset (neg : Bool) (h m : Nat)

/-- Seconds east of UTC. -/
def Zone.seconds : Zone → Int
  | .utc => 0
  | .offset neg h m => (if neg then -1 else 1) * (((h : Int) * 60 + m) * 60)

/-- A date and time of day with fraction of the second, as digits. -/
structure Stamp where
  year : Nat
  month : Nat
  day : Nat
  hour : Nat
  minute : Nat
  second : Nat
  frac : List Nat
  zone : Zone

def Stamp.date (x : Stamp) : Date := ⟨x.year, x.month, x.day⟩

/-- The nanoseconds that the first nine digits after the point are. -/
def nanos (f : List Nat) : Int := ((List.range 9).map fun i => (f.getD i 0 : Int) * 10 ^ (8 - i)).sum

/-- The nanoseconds from the beginning of 1970 to this time, if its date is `n` days after that. -/
def Stamp.instant (x : Stamp) (n : Int) : Int :=
  (n * 86400 + x.hour * 3600 + x.minute * 60 + x.second - x.zone.seconds) * 10 ^ 9 + nanos x.frac

/-- A time as RFC 3339 has it (without leap seconds). -/
structure Stamp.Proper (x : Stamp) : Prop where
  year : x.year < 10000
  date : x.date.Exists
  hour : x.hour < 24
  minute : x.minute < 60
  second : x.second < 60
  frac : ∀ i ∈ x.frac, i < 10
  zone : ∀ neg h m, x.zone = .offset neg h m → h < 24 ∧ m < 60

/-- The digit `n`. -/
def digit (n : Nat) : Char := Char.ofNat (48 + n)

def two (n : Nat) : List Char := [digit (n / 10), digit (n % 10)]

def four (n : Nat) : List Char := [digit (n / 1000), digit (n / 100 % 10), digit (n / 10 % 10), digit (n % 10)]

/-- Its text. -/
def Zone.text : Zone → List Char
  | .utc => ['Z']
  | .offset neg h m => (if neg then '-' else '+') :: two h ++ ':' :: two m

/-- Its text in RFC 3339. -/
def Stamp.text (x : Stamp) : List Char :=
  four x.year ++ '-' :: two x.month ++ '-' :: two x.day ++ 'T' :: two x.hour ++ ':' :: two x.minute ++ ':' :: two x.second ++
    (if x.frac = [] then [] else '.' :: x.frac.map digit) ++ x.zone.text

/-- What else is taken for a number of hours or minutes in a zone: two digits, or a sign and a digit. -/
inductive Pair : List Char → Int → Prop
  | plain {a b : Nat} : a < 10 → b < 10 → Pair [digit a, digit b] (10 * a + b)
  | plus {b : Nat} : b < 10 → Pair ['+', digit b] b
  | minus {b : Nat} : b < 10 → Pair ['-', digit b] (-b)

/-- What is taken for a zone, and its seconds. -/
inductive LooseZone : List Char → Int → Prop
  | utc : LooseZone ['Z'] 0
  | east {h m : List Char} {a b : Int} : Pair h a → Pair m b → LooseZone ('+' :: h ++ ':' :: m) ((a * 60 + b) * 60)
  | west {h m : List Char} {a b : Int} : Pair h a → Pair m b → LooseZone ('-' :: h ++ ':' :: m) (-((a * 60 + b) * 60))

/-- What is taken for an hour: also one digit. -/
inductive LooseHour : List Char → Nat → Prop
  | two {n : Nat} : n < 24 → LooseHour (Time.two n) n
  | one {n : Nat} : n < 10 → LooseHour [digit n] n

/-- What is taken for a fraction: also after a comma. -/
inductive LooseFrac : List Char → List Nat → Prop
  | none : LooseFrac [] []
  | point {f : List Nat} : f ≠ [] → (∀ i ∈ f, i < 10) → LooseFrac ('.' :: f.map digit) f
  | comma {f : List Nat} : f ≠ [] → (∀ i ∈ f, i < 10) → LooseFrac (',' :: f.map digit) f

/-- What is taken for a time, and the nanoseconds from the beginning of 1970 to it. -/
inductive Accepted : List Char → Int → Prop
  | mk {y mo d h mi s : Nat} {f : List Nat} {z n : Int} {hh ff zz : List Char} : y < 10000 → (Date.mk y mo d).Exists → LooseHour hh h → mi < 60 →
    s < 60 → LooseFrac ff f → LooseZone zz z → DaysAfter ⟨y, mo, d⟩ n →
    Accepted (four y ++ '-' :: two mo ++ '-' :: two d ++ 'T' :: hh ++ ':' :: two mi ++ ':' :: two s ++ ff ++ zz)
      ((n * 86400 + h * 3600 + mi * 60 + s - z) * 10 ^ 9 + nanos f)

end Verif.Spec.Time
