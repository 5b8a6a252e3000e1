import Verif.Proofs.TimeParse
import Verif.Props.RunId
import Verif.Model.Start

/-! Property C115: how times are read. -/
namespace Verif.Props.TimeParse
open Verif.TimeParse Verif.Spec.Time Verif.Signode

/-- The texts that are taken for a time are exactly those of `Accepted`, and they are taken for the time that they stand for. -/
theorem C115_exactly (t : String) (v : Int) : parse t = some v ↔ Accepted t.toList v := by
  rw [parse]
  generalize t.toList = t
  constructor
  · intro h
    simp only [parseChars, Option.bind_eq_bind, Option.bind_eq_some_iff, Prod.exists] at h
    obtain ⟨y, t1, h1, t2, h2, mo, t3, h3, t4, h4, d, t5, h5, t6, h6, hr, t7, h7, t8, h8, mi, t9, h9, t10, h10, s, t11, h11, z, t12, h12, h⟩ := h
    obtain ⟨ff, f, hf, ef, en⟩ := fraction_inv t11
    split at h
    · cases h
    rename_i ht
    simp only [ne_eq, not_not] at ht
    subst ht
    split at h
    · cases h
    rename_i hd
    obtain ⟨ny, hy, rfl, rfl⟩ := year_iff.1 h1
    rw [skip_iff] at h2 h4 h6 h8 h10
    obtain ⟨h3, r1, r2⟩ := ranged_iff.1 h3
    obtain ⟨h7, r3, r4⟩ := ranged_iff.1 h7
    obtain ⟨h9, r5, r6⟩ := ranged_iff.1 h9
    obtain ⟨h11, r7, r8⟩ := ranged_iff.1 h11
    rcases getnum_inv h3 with ⟨nmo, _, rfl, rfl⟩ | ⟨e, _⟩
    case inr => cases e
    rcases getnum_inv h5 with ⟨nd, _, rfl, rfl⟩ | ⟨e, _⟩
    case inr => cases e
    rcases getnum_inv h9 with ⟨nmi, _, rfl, rfl⟩ | ⟨e, _⟩
    case inr => cases e
    rcases getnum_inv h11 with ⟨ns, _, rfl, rfl⟩ | ⟨e, _⟩
    case inr => cases e
    have hex : (Date.mk ny nmo nd).Exists := by
      have := daysIn_eq (y := ny) (m := nmo) r1 (by omega)
      rw [this] at hd
      exact ⟨r1, by show (nmo : Int) ≤ 12; omega, by show 1 ≤ (nd : Int); omega, by show (nd : Int) ≤ last ny nmo; omega⟩
    obtain ⟨nh, hh, lh, rfl, rfl⟩ : ∃ (nh : Nat) (hh : List Char), LooseHour hh nh ∧ hr = nh ∧ t6 = hh ++ t7 := by
      rcases getnum_inv h7 with ⟨nh, _, e1, e2⟩ | ⟨_, nh, hn, e1, e2, _⟩
      · exact ⟨nh, two nh, .two (by omega), e1, e2⟩
      · exact ⟨nh, [digit nh], .one hn, e1, e2⟩
    have hz := zone_iff.1 h12
    have key := Accepted.mk hy hex lh (show nmi < 60 by omega) (show ns < 60 by omega) hf hz ((daysAfter_iff hex _).2 rfl)
    have e1 : four ny ++ t1 = four ny ++ '-' :: two nmo ++ '-' :: two nd ++ 'T' :: hh ++ ':' :: two nmi ++ ':' :: two ns ++ ff ++ (fraction t11).2 := by
      rw [h2, h4, h6, h8, h10]
      conv_lhs => rw [ef]
      simp only [List.append_assoc, List.cons_append]
    rw [e1]
    rw [← Option.some.inj h, dateTime, en]
    exact key
  · intro h
    cases h with
    | @mk y mo d h mi s f z n hh ff zz h1 h2 h3 h4 h5 h6 h7 h8 =>
      obtain ⟨x1, x2, x3, x4⟩ := h2
      dsimp only at x1 x2 x3 x4
      have l31 : last y mo ≤ 31 := by
        rw [last]; repeat' split
        all_goals omega
      have hhour : ∀ r, ranged 0 24 (getnum false (hh ++ ':' :: r)) = some ((h : Int), ':' :: r) := by
        intro r
        rw [ranged_iff]
        cases h3 with
        | two hn => exact ⟨getnum_two (by omega) _ _, by omega, by omega⟩
        | one hn =>
          refine ⟨?_, by omega, by omega⟩
          show getnum false (digit h :: ':' :: r) = _
          rw [getnum, if_neg (by rw [isDigit_digit hn]; decide), if_pos (by decide), if_neg (by decide), dig_digit hn]
      have e : four y ++ '-' :: two mo ++ '-' :: two d ++ 'T' :: hh ++ ':' :: two mi ++ ':' :: two s ++ ff ++ zz =
          four y ++ ('-' :: (two mo ++ ('-' :: (two d ++ ('T' :: (hh ++ (':' :: (two mi ++ (':' :: (two s ++ (ff ++ zz))))))))))) := by
        simp only [List.append_assoc, List.cons_append]
      rw [e, parseChars, year_iff.2 ⟨y, h1, rfl, rfl⟩]
      simp only [Option.bind_eq_bind, Option.bind_some, skip_iff.2 rfl]
      rw [ranged_iff.2 ⟨getnum_two (n := mo) (by omega) true _, by omega, by omega⟩]
      simp only [Option.bind_some, skip_iff.2 rfl]
      rw [getnum_two (n := d) (by omega)]
      simp only [Option.bind_some, skip_iff.2 rfl]
      rw [hhour]
      simp only [Option.bind_some, skip_iff.2 rfl]
      rw [ranged_iff.2 ⟨getnum_two (n := mi) (by omega) true _, by omega, by omega⟩]
      simp only [Option.bind_some, skip_iff.2 rfl]
      rw [ranged_iff.2 ⟨getnum_two (n := s) (by omega) true _, by omega, by omega⟩]
      simp only [Option.bind_some]
      rw [fraction_of h6 (zone_ends h7)]
      dsimp only
      rw [zone_iff.2 h7]
      simp only [Option.bind_some]
      rw [if_neg (by simp), daysIn_eq x1 x2, if_neg (by omega), dateTime]
      rw [(daysAfter_iff ⟨x1, x2, x3, x4⟩ n).1 h8]
      rfl

/-- A time that is written as RFC 3339 has it is read, and as the time that it stands for. -/
theorem C115_reads (x : Stamp) (hx : x.Proper) (n : Int) (hn : DaysAfter x.date n) :
    parse (String.ofList x.text) = some (x.instant n) := by
  rw [C115_exactly, String.toList_ofList]
  obtain ⟨h1, h2, h3, h4, h5, h6, h7⟩ := hx
  obtain ⟨y, mo, d, h, mi, s, f, z⟩ := x
  dsimp only at h1 h3 h4 h5 h6 h7
  have hf : LooseFrac (if f = [] then [] else '.' :: f.map digit) f := by
    split
    · rename_i e; subst e; exact .none
    · rename_i e; exact .point e h6
  have hz : LooseZone z.text z.seconds := by
    cases z with
    | utc => exact .utc
    | offset neg a b =>
      obtain ⟨ha, hb⟩ := h7 neg a b rfl
      have pa : Pair (two a) a := by
        have := Pair.plain (a := a / 10) (b := a % 10) (by omega) (by omega)
        rw [show (10 * ((a / 10 : Nat) : Int) + (a % 10 : Nat)) = a by omega] at this
        exact this
      have pb : Pair (two b) b := by
        have := Pair.plain (a := b / 10) (b := b % 10) (by omega) (by omega)
        rw [show (10 * ((b / 10 : Nat) : Int) + (b % 10 : Nat)) = b by omega] at this
        exact this
      cases neg with
      | false =>
        have := LooseZone.east pa pb
        rw [show ((a : Int) * 60 + b) * 60 = Zone.seconds (.offset false a b) by simp [Zone.seconds]] at this
        exact this
      | true =>
        have := LooseZone.west pa pb
        rw [show -(((a : Int) * 60 + b) * 60) = Zone.seconds (.offset true a b) by simp [Zone.seconds]] at this
        exact this
  exact Accepted.mk h1 h2 (.two h3) h4 h5 hf hz hn

/-- Every date that exists is some number of days after 1970-01-01, and only one number. -/
theorem C115_calendar (x : Date) (hx : x.Exists) : ∃ n, DaysAfter x n ∧ ∀ m, DaysAfter x m → m = n :=
  ⟨_, (daysAfter_iff hx _).2 rfl, fun m hm => (daysAfter_iff hx m).1 hm⟩

/-- A text with a date that does not exist is not taken for a time, whatever comes after the date. -/
theorem C115_missing (y mo d : Nat) (hy : y < 10000) (hmo : mo < 100) (hd : d < 100) (h : ¬ (Date.mk y mo d).Exists) (r : List Char) :
    parse (String.ofList (four y ++ '-' :: two mo ++ '-' :: two d ++ r)) = none := by
  rcases hp : parse (String.ofList (four y ++ '-' :: two mo ++ '-' :: two d ++ r)) with _ | v
  · rfl
  · rw [C115_exactly, String.toList_ofList] at hp
    generalize hl : four y ++ '-' :: two mo ++ '-' :: two d ++ r = l at hp
    cases hp with
    | @mk y' mo' d' h' mi s f z n hh ff zz h1 h2 h3 h4 h5 h6 h7 h8 =>
      obtain ⟨x1, x2, x3, x4⟩ := id h2
      dsimp only at x1 x2 x3 x4
      have l31 : last y' mo' ≤ 31 := by
        rw [last]; repeat' split
        all_goals omega
      simp only [List.append_assoc, List.cons_append] at hl
      obtain ⟨e1, e2⟩ := List.append_inj hl rfl
      obtain ⟨e2, e3⟩ := List.append_inj (List.cons.inj e2).2 rfl
      obtain ⟨e3, -⟩ := List.append_inj (List.cons.inj e3).2 rfl
      have a1 : y = y' := by
        have p1 := (year_iff (r := [])).2 ⟨y, hy, rfl, rfl⟩
        rw [e1, year_iff.2 ⟨y', h1, rfl, rfl⟩] at p1
        have := congrArg Prod.fst (Option.some.inj p1); dsimp only at this; omega
      have two_inj : ∀ {a b : Nat}, a < 100 → b < 100 → two a = two b → a = b := by
        intro a b ha hb e
        have p1 := getnum_two ha true []
        rw [e, getnum_two hb] at p1
        have := congrArg Prod.fst (Option.some.inj p1); dsimp only at this; omega
      have a2 := two_inj hmo (by omega) e2
      have a3 := two_inj hd (by omega) e3
      subst a1 a2 a3
      exact absurd h2 h

theorem digit_ne {n : Nat} {l : List Char} (h : Nat.toDigits 10 n = '-' :: l) : False := by
  have := Nat.isDigit_of_mem_toDigits (b := 10) (n := n) (c := '-') (by decide) (by decide) (by rw [h]; exact List.mem_cons_self)
  revert this
  decide

theorem int_inj {a b : Int} (h : toString a = toString b) : a = b := by
  have hs : ∀ n : Nat, (toString (Int.negSucc n)).toList = '-' :: Nat.toDigits 10 (n + 1) := by
    intro n
    rw [← RunId.toList_nat, show toString (Int.negSucc n) = "-" ++ toString (n + 1) from rfl, String.toList_append]
    rfl
  have h' := congrArg String.toList h
  rcases a with a | a <;> rcases b with b | b
  · rw [Int.ofNat_eq_natCast, Int.ofNat_eq_natCast, RunId.toList_int, RunId.toList_int] at h'
    rw [RunId.repr_inj h']
  · rw [Int.ofNat_eq_natCast, RunId.toList_int, hs] at h'
    exact (digit_ne h').elim
  · rw [Int.ofNat_eq_natCast, RunId.toList_int, hs] at h'
    exact (digit_ne h'.symm).elim
  · rw [hs, hs] at h'
    have := RunId.repr_inj (List.cons.inj h').2
    rw [show a = b by omega]

/-- Two requests with the same namespace, at times written in RFC 3339 in any zones, are the same run exactly if it is the same
millisecond. -/
theorem C115_jobs (x x' : Stamp) (hx : x.Proper) (hx' : x'.Proper) (n n' : Int) (hn : DaysAfter x.date n) (hn' : DaysAfter x'.date n')
    (dflt dflt' : Int) (nm doc doc' : String) (j j' : Job) (hj : runSig1 parse dflt ⟨nm, String.ofList x.text, doc⟩ = some j)
    (hj' : runSig1 parse dflt' ⟨nm, String.ofList x'.text, doc'⟩ = some j') :
    jobId j = jobId j' ↔ x.instant n / 10 ^ 6 = x'.instant n' / 10 ^ 6 := by
  have start : ∀ {x : Stamp} {n dflt : Int} {doc : String} {j : Job}, x.Proper → DaysAfter x.date n →
      runSig1 parse dflt ⟨nm, String.ofList x.text, doc⟩ = some j → j.nmspc = nm ∧ j.start = x.instant n := by
    intro x n dflt doc j hx hn hj
    simp only [runSig1, Option.bind_eq_bind, Option.bind_eq_some_iff] at hj
    obtain ⟨t, ht, m, hm, e⟩ := hj
    rw [← Option.some.inj e]
    refine ⟨rfl, ?_⟩
    rw [Signode.startTime, if_neg, C115_reads x hx n hn] at ht
    · exact (Option.some.inj ht).symm
    · intro e
      have := congrArg (fun s => s.toList.length) e
      simp [Stamp.text, four] at this
  obtain ⟨a1, a2⟩ := start hx hn hj
  obtain ⟨b1, b2⟩ := start hx' hn' hj'
  rw [jobId, jobId, runnerRunId, runnerRunId, a1, b1, a2, b2, unixMilli, unixMilli]
  constructor
  · intro h
    have := congrArg String.toList h
    rw [String.toList_append (t := toString _), String.toList_append (t := toString _)] at this
    exact int_inj (String.toList_inj.1 (List.append_cancel_left this))
  · intro h
    rw [show (1000000 : Int) = 10 ^ 6 by decide, h]

/-- The tool that is started with a time written in RFC 3339 drops everything until that time. -/
theorem C115_start {K : Type} (w : Start.World K) (hw : w.parse = parse) (x : Stamp) (hx : x.Proper) (n : Int) (hn : DaysAfter x.date n) :
    Start.dropTime w (String.ofList x.text) = .ok (x.instant n) := by
  rw [Start.dropTime, if_neg, hw, C115_reads x hx n hn]
  · rfl
  · intro e
    have := congrArg (fun s => s.toList.length) e
    simp [Stamp.text, four] at this

/-! The time in the documentation (signode.go:4, doc/usage.txt:30), in its own zone and in UTC. -/

def exStamp : Stamp := ⟨2022, 9, 1, 5, 50, 42, [], .offset false 2 0⟩
def exStamp' : Stamp := ⟨2022, 9, 1, 3, 50, 42, [0, 0, 0, 9], .utc⟩

theorem exStamp_proper : exStamp.Proper :=
  ⟨by decide, ⟨by decide, by decide, by decide, by decide⟩, by decide, by decide, by decide, by decide,
    fun _ _ _ e => by cases e; decide⟩

theorem exStamp'_proper : exStamp'.Proper :=
  ⟨by decide, ⟨by decide, by decide, by decide, by decide⟩, by decide, by decide, by decide, by decide, fun _ _ _ e => by cases e⟩

theorem exStamp_text : String.ofList exStamp.text = "2022-09-01T05:50:42+02:00" ∧ String.ofList exStamp'.text = "2022-09-01T03:50:42.0009Z" := by
  decide +kernel

theorem exStamp_days : DaysAfter exStamp.date 19236 ∧ DaysAfter exStamp'.date 19236 := by
  have h : Date.Exists ⟨2022, 9, 1⟩ := exStamp_proper.2
  exact ⟨(daysAfter_iff h _).2 (by decide +kernel), (daysAfter_iff h _).2 (by decide +kernel)⟩

theorem ex_days : DaysAfter ⟨1970, 3, 1⟩ 59 ∧ DaysAfter ⟨1969, 12, 30⟩ (-2) := by
  constructor <;> constructor <;> intro h <;> first | decide +kernel | (revert h; decide +kernel)

/-- They are one run. -/
theorem ex_job : ∃ j j', runSig1 parse 0 ⟨"0", "2022-09-01T05:50:42+02:00", "AA"⟩ = some j ∧
    runSig1 parse 7 ⟨"0", "2022-09-01T03:50:42.0009Z", "AA"⟩ = some j' ∧ jobId j = jobId j' ∧ j ≠ j' := by
  have hj : runSig1 parse 0 ⟨"0", "2022-09-01T05:50:42+02:00", "AA"⟩ = some ⟨"0", 1662004242000000000, 170⟩ := by decide +kernel
  have hj' : runSig1 parse 7 ⟨"0", "2022-09-01T03:50:42.0009Z", "AA"⟩ = some ⟨"0", 1662004242000900000, 170⟩ := by decide +kernel
  refine ⟨_, _, hj, hj', ?_, by decide⟩
  rw [← exStamp_text.1] at hj
  rw [← exStamp_text.2] at hj'
  exact (C115_jobs exStamp exStamp' exStamp_proper exStamp'_proper 19236 19236 exStamp_days.1 exStamp_days.2 0 7 "0" "AA" "AA" _ _ hj hj').2
    (by decide +kernel)

/-- What is refused: 29 February 2022, 31 April, hour 24, a leap second, a missing zone, a text after the zone, a space for the T. -/
theorem ex_refused : (["2022-02-29T00:00:00Z", "2022-04-31T00:00:00Z", "2022-04-01T24:00:00Z", "2016-12-31T23:59:60Z", "2022-04-01T00:00:00",
    "2022-04-01T00:00:00Z ", "2022-04-01 00:00:00Z", "2022-4-01T00:00:00Z", "_", ""].all fun t => (parse t).isNone) = true := by decide +kernel

/-- What is taken though it is not as RFC 3339 has it: an hour of one digit, a comma, a zone of 99 hours, a sign within the zone. -/
theorem ex_loose : parse "2022-09-01T5:50:42,5+02:00" = some 1662004242500000000 ∧
    parse "2022-09-05T06:50:42+99:00" = some 1662004242000000000 ∧ parse "2022-09-01T05:50:42+02:-0" = some 1662004242000000000 := by
  decide +kernel

end Verif.Props.TimeParse
