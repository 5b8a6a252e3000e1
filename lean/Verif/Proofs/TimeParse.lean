import Verif.Model.TimeParse
import Verif.Spec.Time
import Mathlib.Tactic.IntervalCases

/-! The calendar of `Verif.Model.TimeParse` is that of `Verif.Spec.Time`. -/
namespace Verif.TimeParse
open Verif.Spec.Time

theorem leap_iff (y : Int) : isLeap y = true ↔ Leap y := by
  simp only [isLeap, Leap, Bool.and_eq_true, Bool.or_eq_true, decide_eq_true_eq]
  omega

theorem daysIn_eq {y m : Int} (h1 : 1 ≤ m) (h2 : m ≤ 12) : daysIn m y = last y m := by
  simp only [daysIn, last, leap_iff]
  have hm : m = 1 ∨ m = 2 ∨ m = 3 ∨ m = 4 ∨ m = 5 ∨ m = 6 ∨ m = 7 ∨ m = 8 ∨ m = 9 ∨ m = 10 ∨ m = 11 ∨ m = 12 := by omega
  rcases hm with rfl | rfl | rfl | rfl | rfl | rfl | rfl | rfl | rfl | rfl | rfl | rfl
  all_goals
    by_cases h : Leap y <;> simp [h, before, daysBefore]

theorem daysSinceEpoch_succ (y : Int) : daysSinceEpoch (y + 1) = daysSinceEpoch y + if Leap y then 366 else 365 := by
  by_cases h : Leap y
  · rw [if_pos h]
    simp only [daysSinceEpoch, absoluteZeroYear]
    unfold Leap at h
    omega
  · rw [if_neg h]
    simp only [daysSinceEpoch, absoluteZeroYear]
    unfold Leap at h
    omega

theorem unixDay_next {x : Date} (h : x.Exists) : unixDay x.next.y x.next.m x.next.d = unixDay x.y x.m x.d + 1 := by
  obtain ⟨y, m, d⟩ := x
  obtain ⟨h1, h2, h3, h4⟩ := h
  dsimp only at h1 h2 h3 h4
  have hm : m = 1 ∨ m = 2 ∨ m = 3 ∨ m = 4 ∨ m = 5 ∨ m = 6 ∨ m = 7 ∨ m = 8 ∨ m = 9 ∨ m = 10 ∨ m = 11 ∨ m = 12 := by omega
  rw [Date.next]
  dsimp only
  by_cases hd : d < last y m
  · rw [if_pos hd]
    simp only [unixDay]; omega
  rw [if_neg hd]
  have hd : d = last y m := by omega
  subst hd
  rcases hm with rfl | rfl | rfl | rfl | rfl | rfl | rfl | rfl | rfl | rfl | rfl | rfl
  all_goals
    simp only [unixDay, leap_iff, last]
    by_cases h : Leap y <;> simp [h, before, daysBefore, daysSinceEpoch_succ] <;> omega

theorem next_exists {x : Date} (h : x.Exists) : x.next.Exists := by
  obtain ⟨y, m, d⟩ := x
  obtain ⟨h1, h2, h3, h4⟩ := h
  dsimp only at h1 h2 h3 h4
  have l : ∀ a b : Int, 28 ≤ last a b := by intro a b; rw [last]; repeat' split
                                            all_goals omega
  rw [Date.next]
  dsimp only
  split
  · exact ⟨h1, h2, by show 1 ≤ d + 1; omega, by show d + 1 ≤ last y m; omega⟩
  · split
    · exact ⟨by show 1 ≤ m + 1; omega, by show m + 1 ≤ 12; omega, Int.le_refl _, by have := l y (m + 1); show 1 ≤ last y (m + 1); omega⟩
    · exact ⟨by show (1 : Int) ≤ 1; omega, by show (1 : Int) ≤ 12; omega, Int.le_refl _, by have := l (y + 1) 1; show 1 ≤ last (y + 1) 1; omega⟩

theorem iterate_day {x : Date} (h : x.Exists) (n : Nat) :
    (Date.next^[n] x).Exists ∧ unixDay (Date.next^[n] x).y (Date.next^[n] x).m (Date.next^[n] x).d = unixDay x.y x.m x.d + n := by
  induction n with
  | zero => exact ⟨h, by simp⟩
  | succ n ih =>
    rw [Function.iterate_succ_apply']
    exact ⟨next_exists ih.1, by rw [unixDay_next ih.1, ih.2]; push_cast; omega⟩

/-- The day within the year, from 0. -/
theorem yearDay_bounds {y m d : Int} (h : (Date.mk y m d).Exists) :
    daysSinceEpoch y + absoluteToUnix ≤ unixDay y m d ∧ unixDay y m d < daysSinceEpoch (y + 1) + absoluteToUnix := by
  obtain ⟨h1, h2, h3, h4⟩ := h
  dsimp only at h1 h2 h3 h4
  have hm : m = 1 ∨ m = 2 ∨ m = 3 ∨ m = 4 ∨ m = 5 ∨ m = 6 ∨ m = 7 ∨ m = 8 ∨ m = 9 ∨ m = 10 ∨ m = 11 ∨ m = 12 := by omega
  rw [daysSinceEpoch_succ]
  simp only [unixDay, leap_iff]
  rcases hm with rfl | rfl | rfl | rfl | rfl | rfl | rfl | rfl | rfl | rfl | rfl | rfl
  all_goals
    simp only [last] at h4
    by_cases h : Leap y <;> simp [h, before, daysBefore] at h4 ⊢ <;> omega

theorem daysSinceEpoch_mono {a b : Int} (h : a ≤ b) : daysSinceEpoch a ≤ daysSinceEpoch b := by
  obtain ⟨n, rfl⟩ : ∃ n : Nat, b = a + n := ⟨(b - a).toNat, by omega⟩
  induction n with
  | zero => simp
  | succ n ih =>
    have := daysSinceEpoch_succ (a + n)
    rw [show a + ((n + 1 : Nat) : Int) = a + n + 1 by push_cast; omega, this]
    have := ih (by omega)
    split <;> omega

/-- The end of a month is the beginning of the next. -/
theorem unixDay_month {y m : Int} (h1 : 1 ≤ m) (h2 : m ≤ 12) : unixDay y (m + 1) 1 = unixDay y m 1 + last y m := by
  have hm : m = 1 ∨ m = 2 ∨ m = 3 ∨ m = 4 ∨ m = 5 ∨ m = 6 ∨ m = 7 ∨ m = 8 ∨ m = 9 ∨ m = 10 ∨ m = 11 ∨ m = 12 := by omega
  simp only [unixDay, leap_iff, last]
  rcases hm with rfl | rfl | rfl | rfl | rfl | rfl | rfl | rfl | rfl | rfl | rfl | rfl
  all_goals
    by_cases h : Leap y <;> simp [h, before, daysBefore] <;> omega

theorem unixDay_months {y a b : Int} (h1 : 1 ≤ a) (h2 : a < b) (h3 : b ≤ 13) : unixDay y a 1 + last y a ≤ unixDay y b 1 := by
  obtain ⟨n, rfl⟩ : ∃ n : Nat, b = a + 1 + n := ⟨(b - a - 1).toNat, by omega⟩
  induction n with
  | zero => rw [Nat.cast_zero, Int.add_zero, unixDay_month h1 (by omega)]
  | succ n ih =>
    have h4 := ih (by omega) (by push_cast at h3; omega)
    have h5 := unixDay_month (y := y) (m := a + 1 + n) (by omega) (by push_cast at h3; omega)
    rw [show a + 1 + ((n + 1 : Nat) : Int) = a + 1 + n + 1 by push_cast; omega, h5]
    have : 28 ≤ last y (a + 1 + n) := by
      rw [last]; repeat' split
      all_goals omega
    omega

/-- Different dates have different days. -/
theorem unixDay_inj {x z : Date} (hx : x.Exists) (hz : z.Exists) (e : unixDay x.y x.m x.d = unixDay z.y z.m z.d) : x = z := by
  obtain ⟨y, m, d⟩ := x
  obtain ⟨y', m', d'⟩ := z
  dsimp only at e
  have b1 := yearDay_bounds hx
  have b2 := yearDay_bounds hz
  have hy : y = y' := by
    rcases Int.lt_trichotomy y y' with h | h | h
    · have := daysSinceEpoch_mono (show y + 1 ≤ y' by omega); omega
    · exact h
    · have := daysSinceEpoch_mono (show y' + 1 ≤ y by omega); omega
  subst hy
  obtain ⟨h1, h2, h3, h4⟩ := hx
  obtain ⟨k1, k2, k3, k4⟩ := hz
  dsimp only at h1 h2 h3 h4 k1 k2 k3 k4
  have g : ∀ k c : Int, unixDay y k c = unixDay y k 1 + (c - 1) := by intro k c; simp only [unixDay]; omega
  rw [g m, g m'] at e
  have hm : m = m' := by
    rcases Int.lt_trichotomy m m' with h | h | h
    · have := unixDay_months (y := y) h1 h (by omega); omega
    · exact h
    · have := unixDay_months (y := y) k1 h (by omega); omega
  subst hm
  rw [show d = d' by omega]

theorem epoch_exists : epoch.Exists := by unfold Date.Exists epoch last; decide
theorem epoch_day : unixDay epoch.y epoch.m epoch.d = 0 := by decide

/-- The day that the code computes is the number of days after 1970-01-01. -/
theorem daysAfter_iff {x : Date} (h : x.Exists) (n : Int) : DaysAfter x n ↔ n = unixDay x.y x.m x.d := by
  constructor
  · rintro ⟨h1, h2⟩
    rcases Int.le_total 0 n with hn | hn
    · have := (iterate_day epoch_exists n.toNat).2
      rw [h1 hn, epoch_day] at this
      omega
    · have := (iterate_day h (-n).toNat).2
      rw [h2 hn, epoch_day] at this
      omega
  · rintro rfl
    refine ⟨fun hn => ?_, fun hn => ?_⟩
    · obtain ⟨a, b⟩ := iterate_day epoch_exists (unixDay x.y x.m x.d).toNat
      exact unixDay_inj a h (by rw [b, epoch_day]; omega)
    · obtain ⟨a, b⟩ := iterate_day h (-unixDay x.y x.m x.d).toNat
      exact unixDay_inj a epoch_exists (by rw [b, epoch_day]; omega)

/-! ## Digits -/

theorem digit_ok : ∀ n < 10, isDigit (digit n) = true ∧ dig (digit n) = n := by decide

theorem isDigit_digit {n : Nat} (h : n < 10) : isDigit (digit n) = true := (digit_ok n h).1
theorem dig_digit {n : Nat} (h : n < 10) : dig (digit n) = n := (digit_ok n h).2

theorem digit_of {c : Char} (h : isDigit c = true) : ∃ n < 10, c = digit n := by
  simp only [isDigit, Bool.and_eq_true, decide_eq_true_eq, Char.le_def, UInt32.le_iff_toNat_le] at h
  have h1 : 48 ≤ c.toNat := h.1
  have h2 : c.toNat ≤ 57 := h.2
  refine ⟨c.toNat - 48, by omega, ?_⟩
  rw [digit, show 48 + (c.toNat - 48) = c.toNat by omega, Char.ofNat_toNat]

theorem not_sign {n : Nat} (h : n < 10) : digit n ≠ '-' ∧ digit n ≠ '+' := by
  have : ∀ n < 10, digit n ≠ '-' ∧ digit n ≠ '+' := by decide
  exact this n h

theorem atoi_digit {a : Char} {r : List Char} (h : isDigit a = true) :
    atoi (a :: r) = if (a :: r).all isDigit then some (digits (a :: r)) else none := by
  obtain ⟨n, hn, rfl⟩ := digit_of h
  rw [atoi]
  · exact fun _ e => (not_sign hn).1 (List.cons.inj e).1
  · exact fun _ e => (not_sign hn).2 (List.cons.inj e).1

theorem digits_four {a b c d : Char} : digits [a, b, c, d] = 1000 * dig a + 100 * dig b + 10 * dig c + dig d := by
  simp only [digits, List.foldl_cons, List.foldl_nil]; omega

theorem digits_two {a b : Char} : digits [a, b] = 10 * dig a + dig b := by
  simp only [digits, List.foldl_cons, List.foldl_nil]; omega

theorem year_iff {t r : List Char} {y : Int} : year t = some (y, r) ↔ ∃ n < 10000, y = (n : Nat) ∧ t = four n ++ r := by
  constructor
  · intro h
    match t, h with
    | a :: b :: c :: d :: r', h =>
      rw [year] at h
      split at h
      · rename_i ha
        rw [atoi_digit ha] at h
        split at h
        · rename_i hall
          simp only [List.all_cons, List.all_nil, Bool.and_eq_true] at hall
          obtain ⟨_, hb, hc, hd, _⟩ := hall
          obtain ⟨na, h1, rfl⟩ := digit_of ha
          obtain ⟨nb, h2, rfl⟩ := digit_of hb
          obtain ⟨nc, h3, rfl⟩ := digit_of hc
          obtain ⟨nd, h4, rfl⟩ := digit_of hd
          rw [Option.map_some, digits_four, dig_digit h1, dig_digit h2, dig_digit h3, dig_digit h4] at h
          injection h with h
          injection h with e1 e2
          refine ⟨1000 * na + 100 * nb + 10 * nc + nd, by omega, by rw [← e1]; push_cast; rfl, ?_⟩
          rw [four, e2, show (1000 * na + 100 * nb + 10 * nc + nd) / 1000 = na by omega,
            show (1000 * na + 100 * nb + 10 * nc + nd) / 100 % 10 = nb by omega, show (1000 * na + 100 * nb + 10 * nc + nd) / 10 % 10 = nc by omega,
            show (1000 * na + 100 * nb + 10 * nc + nd) % 10 = nd by omega]
          rfl
        · cases h
      · cases h
  · rintro ⟨n, hn, rfl, rfl⟩
    have h1 : n / 1000 < 10 := by omega
    have h2 : n / 100 % 10 < 10 := by omega
    have h3 : n / 10 % 10 < 10 := by omega
    have h4 : n % 10 < 10 := by omega
    show year (digit (n / 1000) :: digit (n / 100 % 10) :: digit (n / 10 % 10) :: digit (n % 10) :: r) = _
    rw [year, if_pos (isDigit_digit h1), atoi_digit (isDigit_digit h1)]
    rw [if_pos (by simp [isDigit_digit h1, isDigit_digit h2, isDigit_digit h3, isDigit_digit h4]), Option.map_some, digits_four, dig_digit h1,
      dig_digit h2, dig_digit h3, dig_digit h4]
    congr 2
    omega

theorem getnum_two {n : Nat} (hn : n < 100) (b : Bool) (r : List Char) : getnum b (two n ++ r) = some ((n : Int), r) := by
  have h1 : n / 10 < 10 := by omega
  have h2 : n % 10 < 10 := by omega
  show getnum b (digit (n / 10) :: digit (n % 10) :: r) = _
  rw [getnum, if_neg (by rw [isDigit_digit h1]; decide), if_neg (by rw [isDigit_digit h2]; decide), dig_digit h1, dig_digit h2]
  congr 2
  omega

theorem getnum_inv {t r : List Char} {x : Int} {b : Bool} (h : getnum b t = some (x, r)) :
    (∃ n < 100, x = (n : Nat) ∧ t = two n ++ r) ∨ (b = false ∧ ∃ n < 10, x = (n : Nat) ∧ t = digit n :: r ∧ ∀ c r', r = c :: r' → isDigit c = false) := by
  match t, h with
  | [a], h =>
    rw [getnum] at h
    split at h
    · rename_i hc
      simp only [Bool.and_eq_true, Bool.not_eq_true'] at hc
      obtain ⟨n, hn, rfl⟩ := digit_of hc.1
      injection h with h
      injection h with e1 e2
      subst e2
      exact .inr ⟨hc.2, n, hn, by rw [← e1, dig_digit hn], rfl, fun _ _ e => by cases e⟩
    · cases h
  | a :: c :: r', h =>
    rw [getnum] at h
    split at h
    · cases h
    rename_i ha
    simp only [Bool.not_eq_true', Bool.not_eq_false] at ha
    obtain ⟨n, hn, rfl⟩ := digit_of ha
    split at h
    · rename_i hc
      split at h
      · cases h
      · rename_i hb
        injection h with h
        injection h with e1 e2
        refine .inr ⟨by simpa using hb, n, hn, by rw [← e1, dig_digit hn], by rw [e2], fun c' r'' e => ?_⟩
        rw [← e2] at e
        rw [← (List.cons.inj e).1]
        simpa using hc
    · rename_i hc
      simp only [Bool.not_eq_true', Bool.not_eq_false] at hc
      obtain ⟨k, hk, rfl⟩ := digit_of hc
      injection h with h
      injection h with e1 e2
      refine .inl ⟨10 * n + k, by omega, by rw [← e1, dig_digit hn, dig_digit hk]; push_cast; rfl, ?_⟩
      rw [two, show (10 * n + k) / 10 = n by omega, show (10 * n + k) % 10 = k by omega, e2]
      rfl

theorem skip_iff {c : Char} {t r : List Char} : skip c t = some r ↔ t = c :: r := by
  cases t with
  | nil => simp [skip]
  | cons a t =>
    rw [skip]
    by_cases h : a = c
    · simp [h]
    · simp [h]

theorem ranged_iff {lo hi x : Int} {r : List Char} {o : Option (Int × List Char)} :
    ranged lo hi o = some (x, r) ↔ o = some (x, r) ∧ lo ≤ x ∧ x < hi := by
  cases o with
  | none => simp [ranged]
  | some p =>
    obtain ⟨a, b⟩ := p
    simp only [ranged, Option.bind_some]
    split
    · rename_i h
      constructor
      · intro e; injection e with e; injection e with e1 e2; subst e1 e2; exact ⟨rfl, h⟩
      · intro e; exact e.1
    · rename_i h
      constructor
      · intro e; cases e
      · rintro ⟨e, h2⟩; injection e with e; injection e with e1 e2; subst e1; exact absurd h2 h

theorem nanoseconds_digits {f : List Nat} (h : ∀ i ∈ f, i < 10) : nanoseconds (f.map digit) = nanos f := by
  have e : ∀ (g : List Nat) (x : Int), (∀ i ∈ g, i < 10) → (g.map digit).foldl (fun x c => 10 * x + dig c) x = g.foldl (fun (x : Int) (i : Nat) => 10 * x + (i : Int)) x := by
    intro g
    induction g with
    | nil => intros; rfl
    | cons a g ih =>
      intro x hg
      rw [List.map_cons, List.foldl_cons, List.foldl_cons, dig_digit (hg a List.mem_cons_self), ih _ fun i hi => hg i (List.mem_cons_of_mem _ hi)]
  rw [nanoseconds, digits, ← List.map_take, e _ _ fun i hi => h i (List.mem_of_mem_take hi), List.length_map, nanos]
  clear h e
  simp only [show List.range 9 = [0, 1, 2, 3, 4, 5, 6, 7, 8] from rfl, List.map_cons, List.map_nil, List.sum_cons, List.sum_nil]
  match f with
  | [] => rfl
  | [a] => simp; try omega
  | [a, b] => simp; try omega
  | [a, b, c] => simp; try omega
  | [a, b, c, d] => simp; try omega
  | [a, b, c, d, e] => simp; try omega
  | [a, b, c, d, e, f] => simp; try omega
  | [a, b, c, d, e, f, g] => simp; try omega
  | [a, b, c, d, e, f, g, h] => simp; try omega
  | a :: b :: c :: d :: e :: f :: g :: h :: i :: r => simp; try omega

/-- The text does not begin with something that belongs to a fraction. -/
def Ends (t : List Char) : Prop := ∀ c r, t = c :: r → isDigit c = false ∧ c ≠ '.' ∧ c ≠ ','

theorem takeWhile_all (l : List Char) : ∀ c ∈ l.takeWhile isDigit, isDigit c = true := by
  induction l with
  | nil => intro c h; cases h
  | cons a l ih =>
    intro c h
    rw [List.takeWhile_cons] at h
    split at h
    · rename_i ha
      rcases List.mem_cons.1 h with rfl | h
      exacts [ha, ih c h]
    · cases h

theorem map_of_all {l : List Char} (h : ∀ c ∈ l, isDigit c = true) : ∃ f : List Nat, l = f.map digit ∧ ∀ i ∈ f, i < 10 := by
  induction l with
  | nil => exact ⟨[], rfl, fun _ h => by cases h⟩
  | cons c l ih =>
    obtain ⟨n, hn, rfl⟩ := digit_of (h c List.mem_cons_self)
    obtain ⟨f, rfl, hf⟩ := ih fun c hc => h c (List.mem_cons_of_mem _ hc)
    exact ⟨n :: f, rfl, fun i hi => by rcases List.mem_cons.1 hi with rfl | hi; exacts [hn, hf i hi]⟩

theorem fraction_inv (t : List Char) : ∃ ff f, LooseFrac ff f ∧ t = ff ++ (fraction t).2 ∧ (fraction t).1 = nanos f := by
  match t with
  | [] => exact ⟨[], [], .none, rfl, by decide⟩
  | [c] => exact ⟨[], [], .none, rfl, show (0 : Int) = nanos [] by decide⟩
  | c :: d :: r =>
    rw [fraction]
    split
    · rename_i h
      obtain ⟨n, hn, rfl⟩ := digit_of h.2
      obtain ⟨g, e, hg⟩ := map_of_all (l := r.takeWhile isDigit) fun c hc => takeWhile_all r c hc
      have hf : ∀ i ∈ n :: g, i < 10 := fun i hi => by rcases List.mem_cons.1 hi with rfl | hi; exacts [hn, hg i hi]
      have hr : r = g.map digit ++ r.dropWhile isDigit := by rw [← e]; exact List.takeWhile_append_dropWhile.symm
      rcases h.1 with rfl | rfl
      · refine ⟨_, n :: g, .point (by simp) hf, ?_, ?_⟩
        · show _ = '.' :: digit n :: g.map digit ++ List.dropWhile isDigit r
          rw [List.cons_append, List.cons_append, ← hr]
        · rw [e]; exact nanoseconds_digits hf
      · refine ⟨_, n :: g, .comma (by simp) hf, ?_, ?_⟩
        · show _ = ',' :: digit n :: g.map digit ++ List.dropWhile isDigit r
          rw [List.cons_append, List.cons_append, ← hr]
        · rw [e]; exact nanoseconds_digits hf
    · exact ⟨[], [], .none, rfl, show (0 : Int) = nanos [] by decide⟩

theorem fraction_of {ff : List Char} {f : List Nat} (h : LooseFrac ff f) {r : List Char} (hr : Ends r) : fraction (ff ++ r) = (nanos f, r) := by
  have key : ∀ (c : Char) (g : List Nat), (c = '.' ∨ c = ',') → g ≠ [] → (∀ i ∈ g, i < 10) → fraction (c :: g.map digit ++ r) = (nanos g, r) := by
    intro c g hc hg hf
    match g, hg with
    | n :: g, _ =>
      have hn := hf n List.mem_cons_self
      have hall : ∀ x ∈ g.map digit, isDigit x = true := by
        intro x hx
        obtain ⟨i, hi, rfl⟩ := List.mem_map.1 hx
        exact isDigit_digit (hf i (List.mem_cons_of_mem _ hi))
      have hr0 : r.takeWhile isDigit = [] ∧ r.dropWhile isDigit = r := by
        cases r with
        | nil => exact ⟨rfl, rfl⟩
        | cons x r =>
          have := (hr x r rfl).1
          simp [this]
      show fraction (c :: digit n :: (g.map digit ++ r)) = _
      rw [fraction, if_pos ⟨hc, isDigit_digit hn⟩, List.takeWhile_append_of_pos hall, List.dropWhile_append_of_pos hall, hr0.1, hr0.2, List.append_nil]
      rw [show digit n :: g.map digit = (n :: g).map digit from rfl, nanoseconds_digits hf]
  cases h with
  | none =>
    match r, hr with
    | [], _ => rfl
    | [c], _ => rfl
    | c :: d :: r, hr =>
      have := hr c (d :: r) rfl
      show fraction (c :: d :: r) = _
      rw [fraction, if_neg (by rintro ⟨rfl | rfl, _⟩; exacts [this.2.1 rfl, this.2.2 rfl])]
      rfl
  | point h1 h2 => exact key _ _ (.inl rfl) h1 h2
  | comma h1 h2 => exact key _ _ (.inr rfl) h1 h2

theorem pair_iff {a b : Char} {x : Int} : atoi [a, b] = some x ↔ Pair [a, b] x := by
  constructor
  · intro h
    by_cases h1 : a = '-'
    · subst h1
      rw [atoi] at h
      split at h
      · rename_i hb
        simp only [List.all_cons, List.all_nil, Bool.and_true] at hb
        obtain ⟨n, hn, rfl⟩ := digit_of hb
        rw [← Option.some.inj h, show digits [digit n] = 10 * 0 + dig (digit n) from rfl, dig_digit hn, Int.mul_zero, Int.zero_add]
        exact .minus hn
      · cases h
    by_cases h2 : a = '+'
    · subst h2
      rw [atoi] at h
      split at h
      · rename_i hb
        simp only [List.all_cons, List.all_nil, Bool.and_true] at hb
        obtain ⟨n, hn, rfl⟩ := digit_of hb
        rw [← Option.some.inj h, show digits [digit n] = 10 * 0 + dig (digit n) from rfl, dig_digit hn, Int.mul_zero, Int.zero_add]
        exact .plus hn
      · cases h
    · rw [atoi] at h
      · split at h
        · rename_i hb
          simp only [List.all_cons, List.all_nil, Bool.and_true, Bool.and_eq_true] at hb
          obtain ⟨n, hn, rfl⟩ := digit_of hb.1
          obtain ⟨k, hk, rfl⟩ := digit_of hb.2
          rw [← Option.some.inj h, digits_two, dig_digit hn, dig_digit hk]
          exact .plain hn hk
        · cases h
      · exact fun _ e => h1 (List.cons.inj e).1
      · exact fun _ e => h2 (List.cons.inj e).1
  · intro h
    cases h with
    | plain h1 h2 =>
      rw [atoi_digit (isDigit_digit h1), if_pos (by simp [isDigit_digit h1, isDigit_digit h2]), digits_two, dig_digit h1, dig_digit h2]
    | plus h2 =>
      rw [atoi, if_pos (by simp [isDigit_digit h2]), show digits [digit _] = 10 * 0 + dig (digit _) from rfl, dig_digit h2, Int.mul_zero, Int.zero_add]
    | minus h2 =>
      rw [atoi, if_pos (by simp [isDigit_digit h2]), show digits [digit _] = 10 * 0 + dig (digit _) from rfl, dig_digit h2, Int.mul_zero, Int.zero_add]

theorem pair_length {l : List Char} {x : Int} (h : Pair l x) : ∃ a b, l = [a, b] := by
  cases h <;> exact ⟨_, _, rfl⟩

theorem zone_iff {t : List Char} {z : Int} : zone t = some (z, []) ↔ LooseZone t z := by
  constructor
  · intro h
    match t, h with
    | [], h => rw [zone] at h; cases h; all_goals simp
    | c0 :: t, h =>
      by_cases hz : c0 = 'Z'
      · subst hz
        rw [zone] at h
        injection h with h
        injection h with e1 e2
        rw [← e1, e2]
        exact .utc
      match t, h with
      | h1 :: h2 :: c :: m1 :: m2 :: r, h =>
        rw [zone] at h
        · split at h
          · cases h
          rename_i hc
          simp only [ne_eq, not_not] at hc
          subst hc
          cases e1 : atoi [h1, h2] with
          | none => rw [e1] at h; cases h
          | some a =>
            cases e2 : atoi [m1, m2] with
            | none => rw [e1, e2] at h; cases h
            | some b =>
              rw [e1, e2, Option.bind_some, Option.bind_some] at h
              split at h
              · rename_i hs
                injection h with h
                injection h with f1 f2
                subst f1 f2 hs
                exact .east (pair_iff.1 e1) (pair_iff.1 e2)
              · split at h
                · rename_i hs
                  injection h with h
                  injection h with f1 f2
                  subst f1 f2 hs
                  exact .west (pair_iff.1 e1) (pair_iff.1 e2)
                · cases h
        · exact hz
      | [], h | [_], h | [_, _], h | [_, _, _], h | [_, _, _, _], h =>
        rw [zone] at h
        · cases h
        · exact fun r e => hz (List.cons.inj e).1
        · intro _ _ _ _ _ _ _ e; simp at e
  · intro h
    cases h with
    | utc => rfl
    | east p q =>
      obtain ⟨a, b, rfl⟩ := pair_length p
      obtain ⟨c, d, rfl⟩ := pair_length q
      show zone ['+', a, b, ':', c, d] = _
      rw [zone, if_neg (by simp), pair_iff.2 p, pair_iff.2 q]
      · rfl
      · decide
    | west p q =>
      obtain ⟨a, b, rfl⟩ := pair_length p
      obtain ⟨c, d, rfl⟩ := pair_length q
      show zone ['-', a, b, ':', c, d] = _
      rw [zone, if_neg (by simp), pair_iff.2 p, pair_iff.2 q]
      · rfl
      · decide

theorem zone_ends {t : List Char} {z : Int} (h : LooseZone t z) : Ends t := by
  cases h with
  | utc => intro c r e; rw [← (List.cons.inj e).1]; decide
  | east p q => intro c r e; rw [← (List.cons.inj e).1]; decide
  | west p q => intro c r e; rw [← (List.cons.inj e).1]; decide

end Verif.TimeParse
