import Verif.Model.Print
import Verif.Props.Program
import Verif.Props.RunId

/-! C93: the text on standard output as the tool signs. -/
namespace Verif.Props.Print
open Verif.Signode Verif.Program Verif.Print Verif.Props.RunId
variable {K : Type}

/-- What a request has printed when it is in state `b`: that its runs have ended, and the lines for the guests so far. -/
def jobText (b : JobSt) : List (List Char) :=
  (if b.pc = .printing ∨ b.pc = .ended then [doneText (jobId b.job)] else []) ++ b.lines.map (lineText (jobId b.job))

theorem digit_chars {n : Nat} {ch : Char} (h : ch ∈ Nat.toDigits 10 n) : ch.isDigit = true := Nat.isDigit_of_mem_toDigits (by decide) (by decide) h

theorem num_nat (n : Nat) : num n = Nat.toDigits 10 n := toList_int n

theorem num_neg (n : Nat) : num (Int.negSucc n) = '-' :: Nat.toDigits 10 (n + 1) := by
  rw [num]
  show ("-" ++ (n + 1).repr).toList = _
  rw [String.toList_append, Nat.toList_repr]
  rfl

theorem num_inj {a b : Int} (h : num a = num b) : a = b := by
  have key : ∀ n m : Nat, num (n : Int) ≠ num (Int.negSucc m) := by
    intro n m e
    rw [num_nat, num_neg] at e
    have : ('-').isDigit = true := digit_chars (n := n) (by rw [e]; exact List.mem_cons_self ..)
    revert this; decide
  match a, b with
  | .ofNat n, .ofNat m =>
    have h : num (n : Int) = num (m : Int) := h
    rw [num_nat, num_nat] at h
    rw [repr_inj h]
  | .ofNat n, .negSucc m => exact absurd h (key n m)
  | .negSucc n, .ofNat m => exact absurd h.symm (key m n)
  | .negSucc n, .negSucc m =>
    rw [num_neg, num_neg] at h
    have := repr_inj (List.cons.inj h).2
    rw [show n = m by omega]

theorem cut {ch : Char} {a b r r' : List Char} (ha : ch ∉ a) (hb : ch ∉ b) (h : a ++ ch :: r = b ++ ch :: r') : a = b ∧ r = r' := by
  induction a generalizing b with
  | nil =>
    cases b with
    | nil => exact ⟨rfl, (List.cons.inj h).2⟩
    | cons x b => exact absurd (by rw [(List.cons.inj h).1]; exact List.mem_cons_self ..) hb
  | cons x a ih =>
    cases b with
    | nil => exact absurd (by rw [← (List.cons.inj h).1]; exact List.mem_cons_self ..) ha
    | cons y b =>
      obtain ⟨e1, e2⟩ := List.cons.inj h
      obtain ⟨e3, e4⟩ := ih (fun x => ha (List.mem_cons_of_mem _ x)) (fun x => hb (List.mem_cons_of_mem _ x)) e2
      exact ⟨by rw [e1, e3], e4⟩

theorem spaced_inj {l l' : List (List Char)} (h : ∀ x ∈ l, x ≠ [] ∧ ' ' ∉ x) (h' : ∀ x ∈ l', x ≠ [] ∧ ' ' ∉ x) (e : spaced l = spaced l') :
    l = l' := by
  induction l generalizing l' with
  | nil =>
    match l' with
    | [] => rfl
    | [a] => exact absurd e.symm (h' a (List.mem_cons_self ..)).1
    | a :: b :: l' =>
      rw [spaced, spaced] at e
      exact absurd (List.append_eq_nil_iff.1 e.symm).1 (h' a (List.mem_cons_self ..)).1
  | cons a l ih =>
    have one : ∀ {a b : List Char} {r : List Char}, ' ' ∉ a → a = b ++ ' ' :: r → False := fun ha e => ha (by rw [e]; simp)
    match l, l' with
    | [], [] => exact absurd e (h a (List.mem_cons_self ..)).1
    | _ :: _, [] =>
      rw [spaced, spaced] at e
      exact absurd (List.append_eq_nil_iff.1 e).1 (h a (List.mem_cons_self ..)).1
    | [], [b] => rw [spaced, spaced] at e; rw [e]
    | [], b :: b' :: l' => exact (one (h a (List.mem_cons_self ..)).2 e).elim
    | a' :: l, [b] => exact (one (h' b (List.mem_cons_self ..)).2 e.symm).elim
    | a' :: l, b :: b' :: l' =>
      rw [spaced, spaced] at e
      obtain ⟨e1, e2⟩ := cut (h a (List.mem_cons_self ..)).2 (h' b (List.mem_cons_self ..)).2 e
      rw [e1, ih (fun x hx => h x (List.mem_cons_of_mem _ hx)) (fun x hx => h' x (List.mem_cons_of_mem _ hx)) e2]

theorem mem_spaced {l : List (List Char)} {ch : Char} (h : ch ∈ spaced l) : ch = ' ' ∨ ∃ x ∈ l, ch ∈ x := by
  match l with
  | [] => exact absurd h List.not_mem_nil
  | [a] => exact .inr ⟨a, List.mem_cons_self .., h⟩
  | a :: b :: l =>
    rw [spaced, List.mem_append, List.mem_cons] at h
    rcases h with h | h | h
    · exact .inr ⟨a, List.mem_cons_self .., h⟩
    · exact .inl h
    · rcases mem_spaced h with h | ⟨x, h1, h2⟩
      · exact .inl h
      · exact .inr ⟨x, List.mem_cons_of_mem _ h1, h2⟩

theorem sigText_head (s : Schnorr.Sig) : ∃ r, sigText s = '&' :: r := by
  rw [sigText, show "&{[".toList = '&' :: "{[".toList from by simp]
  exact ⟨_, rfl⟩

theorem head_append {a b : List Char} {x : Char} (h : a = x :: b) (r : List Char) : a ++ r = x :: (b ++ r) := by rw [h, List.cons_append]

theorem noSigText_head (id : String) (g : Int) : ∃ r, noSigText id g = 'n' :: r :=
  ⟨_, head_append (head_append (show "no signature produced ".toList = 'n' :: "o signature produced ".toList from rfl) _) _⟩

theorem doneText_head (id : String) : ∃ r, doneText id = 'D' :: r :=
  ⟨_, head_append (show "DSS completed run ID ".toList = 'D' :: "SS completed run ID ".toList from rfl) _⟩

/-- C93 (signatures). The line of a signature determines it, address and number, and is neither a line that says that none was produced nor
one that says that the runs have ended. -/
theorem C93_signature_text (s : Schnorr.Sig) : (∀ s', sigText s = sigText s' → s = s') ∧ (∀ id g, sigText s ≠ noSigText id g) ∧
    ∀ id, sigText s ≠ doneText id := by
  refine ⟨fun s' h => ?_, fun id g h => ?_, fun id h => ?_⟩
  · have byte : ∀ (l : List UInt8) (x : List Char), x ∈ (l.map fun b => num b.toNat) → x ≠ [] ∧ ' ' ∉ x ∧ ']' ∉ x := by
      intro l x hx
      obtain ⟨b, _, rfl⟩ := List.mem_map.1 hx
      rw [num_nat]
      refine ⟨fun e => ?_, fun e => ?_, fun e => ?_⟩
      · have : 0 < (Nat.toDigits 10 b.toNat).length := Nat.length_toDigits_pos
        rw [e] at this; exact absurd this (by decide)
      · have := digit_chars e; revert this; decide
      · have := digit_chars e; revert this; decide
    have brk : ∀ l : List UInt8, ']' ∉ spaced (l.map fun b => num b.toNat) := by
      intro l hx
      rcases mem_spaced hx with hx | ⟨x, h1, h2⟩
      · revert hx; decide
      · exact (byte l x h1).2.2 h2
    rw [sigText, sigText] at h
    have h1 : spaced (s.addr.map fun b => num b.toNat) ++ ']' :: (' ' :: (num s.s ++ ['}'])) =
        spaced (s'.addr.map fun b => num b.toNat) ++ ']' :: (' ' :: (num s'.s ++ ['}'])) := by
      have : "&{[".toList ++ (spaced (s.addr.map fun b => num b.toNat) ++ ']' :: (' ' :: (num s.s ++ ['}']))) =
          "&{[".toList ++ (spaced (s'.addr.map fun b => num b.toNat) ++ ']' :: (' ' :: (num s'.s ++ ['}']))) := by
        simpa using h
      exact List.append_cancel_left this
    obtain ⟨e1, e2⟩ := cut (brk _) (brk _) h1
    have e3 := num_inj (List.append_cancel_right (List.cons.inj e2).2)
    have e4 := spaced_inj (fun x hx => ⟨(byte _ x hx).1, (byte _ x hx).2.1⟩) (fun x hx => ⟨(byte _ x hx).1, (byte _ x hx).2.1⟩) e1
    have e5 : s.addr = s'.addr := by
      refine List.map_injective_iff.2 (fun a b hab => ?_) e4
      have := num_inj hab
      exact UInt8.toNat_inj.1 (by exact_mod_cast this)
    cases s; cases s'
    dsimp only at e3 e5
    rw [e3, e5]
  · obtain ⟨r, e⟩ := sigText_head s
    obtain ⟨r', e'⟩ := noSigText_head id g
    rw [e, e'] at h
    exact absurd (List.cons.inj h).1 (by decide)
  · obtain ⟨r, e⟩ := sigText_head s
    obtain ⟨r', e'⟩ := doneText_head id
    rw [e, e'] at h
    exact absurd (List.cons.inj h).1 (by decide)

theorem job_text {c : Cfg K} {s s' : Sys K} {i : Nat} {g : Int} (hs : jobStep c s i g = .ok s') :
    ∃ b b', s.jobs[i]? = some b ∧ s'.jobs = s.jobs.set i b' ∧
      ((¬ (b.pc = .printing ∨ b.pc = .ended) → b.lines = []) →
        (¬ (b'.pc = .printing ∨ b'.pc = .ended) → b'.lines = []) ∧ jobText b' = jobText b ++ printedBy c s (.job i g)) := by
  rw [jobStep] at hs
  rw [printedBy]
  cases hb : s.jobs[i]? with
  | none => rw [hb] at hs; cases hs
  | some b =>
    rw [hb] at hs
    dsimp only at hs ⊢
    refine ⟨b, ?_⟩
    cases hpc : b.pc with
    | registering =>
      rw [hpc] at hs
      dsimp only at hs ⊢
      by_cases ho : (c.guests.all fun g => decide (g ∈ b.done)) = true
      · rw [if_pos ho] at hs
        have hs := (Outcome.ok.inj hs).symm
        subst hs
        refine ⟨_, rfl, rfl, fun h => ?_⟩
        have h := h (by simp)
        simp [jobText, hpc, h]
      · rw [if_neg ho] at hs
        by_cases hm : (decide (g ∈ c.guests) && decide (g ∉ b.done)) = true
        · rw [if_pos hm, Outcome.bind_eq_ok] at hs
          obtain ⟨d, _, hs⟩ := hs
          have hs := (Outcome.ok.inj hs).symm
          subst hs
          refine ⟨_, rfl, rfl, fun h => ?_⟩
          have h := h (by simp)
          simp [jobText, hpc, h]
        · rw [if_neg hm] at hs; cases hs
    | launching =>
      rw [hpc] at hs
      dsimp only at hs ⊢
      rw [Outcome.bind_eq_ok] at hs
      obtain ⟨s1, h1, hs⟩ := hs
      have hs := (Outcome.ok.inj hs).symm
      subst hs
      refine ⟨_, rfl, by rw [launchAll_jobs h1], fun h => ?_⟩
      have h := h (by simp)
      simp [jobText, hpc, h]
    | waiting =>
      rw [hpc] at hs
      dsimp only at hs ⊢
      by_cases ho : b.runners.all (released s) = true
      · rw [if_pos ho] at hs
        have hs := (Outcome.ok.inj hs).symm
        subst hs
        refine ⟨_, rfl, rfl, fun h => ?_⟩
        have h := h (by simp)
        simp [jobText, hpc, h]
      · rw [if_neg ho] at hs; cases hs
    | deregistering =>
      rw [hpc] at hs
      dsimp only at hs ⊢
      by_cases ho : (c.guests.all fun g => decide (g ∈ b.done)) = true
      · rw [if_pos ho] at hs ⊢
        have hs := (Outcome.ok.inj hs).symm
        subst hs
        refine ⟨_, rfl, rfl, fun h => ?_⟩
        have h := h (by simp)
        simp [jobText, hpc, h]
      · rw [if_neg ho] at hs ⊢
        by_cases hm : (decide (g ∈ c.guests) && decide (g ∉ b.done)) = true
        · rw [if_pos hm, Outcome.bind_eq_ok] at hs
          obtain ⟨d, _, hs⟩ := hs
          have hs := (Outcome.ok.inj hs).symm
          subst hs
          refine ⟨_, rfl, rfl, fun h => ?_⟩
          have h := h (by simp)
          simp [jobText, hpc, h]
        · rw [if_neg hm] at hs; cases hs
    | printing =>
      rw [hpc] at hs
      dsimp only at hs ⊢
      by_cases ho : (c.guests.all fun g => decide (g ∈ b.done)) = true
      · rw [if_pos ho] at hs ⊢
        have hs := (Outcome.ok.inj hs).symm
        subst hs
        refine ⟨_, rfl, rfl, fun h => ?_⟩
        simp [jobText, hpc]
      · rw [if_neg ho] at hs ⊢
        by_cases hm : (decide (g ∈ c.guests) && decide (g ∉ b.done)) = true
        · rw [if_pos hm, Outcome.bind_eq_ok] at hs
          obtain ⟨x, h1, hs⟩ := hs
          rw [Outcome.bind_eq_ok] at hs
          obtain ⟨l, h2, hs⟩ := hs
          have hs := (Outcome.ok.inj hs).symm
          subst hs
          refine ⟨_, rfl, rfl, fun h => ?_⟩
          rw [h1, Outcome.bind_ok, h2]
          simp [jobText, hpc]
        · rw [if_neg hm] at hs; cases hs
    | ended => rw [hpc] at hs; cases hs

/-- The events of the other goroutines leave the requests, except that one is added. -/
theorem other_jobs {c : Cfg K} {s s' : Sys K} {e : Ev} (he : ∀ i g, e ≠ .job i g) (hs : step c s e = .ok s') :
    s'.jobs = s.jobs ∨ ∃ j, s'.jobs = s.jobs ++ [⟨j, .registering, [], [], []⟩] := by
  cases e with
  | job i g => exact absurd rfl (he i g)
  | request j => rw [step] at hs; rw [← Outcome.ok.inj hs]; exact .inr ⟨j, rfl⟩
  | cons q =>
    left
    rw [step, consStep] at hs
    cases hc : s.node.cons q with
    | idle => rw [hc] at hs; exact node_jobs hs
    | got m =>
      rw [hc] at hs
      dsimp only at hs
      rw [Outcome.bind_eq_ok] at hs
      obtain ⟨s1, h1, h2⟩ := hs
      rw [← Outcome.ok.inj h2]
      have := node_jobs h1
      exact this
    | found m =>
      rw [hc] at hs
      dsimp only at hs
      rw [Outcome.bind_eq_ok] at hs
      obtain ⟨s1, h1, h2⟩ := hs
      exact (node_jobs h2).trans (runEvent_jobs h1)
  | thread r =>
    left
    rw [step, threadStep] at hs
    cases ho : s.node.reg.objs[r]? with
    | none => rw [ho] at hs; cases hs
    | some o =>
      rw [ho] at hs
      dsimp only at hs
      by_cases h0 : o.started = 0
      · rw [if_pos h0] at hs; cases hs
      · rw [if_neg h0, Outcome.bind_eq_ok] at hs
        obtain ⟨s1, h1, h2⟩ := hs
        by_cases hp : phaseOf s1 r = some .done
        · rw [if_pos hp] at h2; exact (node_jobs h2).trans (runEvent_jobs h1)
        · rw [if_neg hp] at h2; rw [← Outcome.ok.inj h2]; exact runEvent_jobs h1
  | _ => exact .inl (node_jobs hs)

theorem by_tags {α : Type} {z : List (Nat × α)} {n : Nat} (h : ∀ x ∈ z, x.1 < n) :
    (z.map Prod.snd).Perm ((List.range n).flatMap fun i => (z.filter fun x => x.1 = i).map Prod.snd) := by
  induction n generalizing z with
  | zero =>
    cases z with
    | nil => exact .refl _
    | cons x z => exact absurd (h x (List.mem_cons_self ..)) (by omega)
  | succ n ih =>
    rw [List.range_succ, List.flatMap_append, List.flatMap_singleton]
    have h1 := ih (z := z.filter fun x => !decide (x.1 = n)) (fun x hx => by
      have h2 := h x (List.mem_filter.1 hx).1
      have h3 := (List.mem_filter.1 hx).2
      simp at h3
      omega)
    have h2 : ((List.range n).flatMap fun i => ((z.filter fun x => !decide (x.1 = n)).filter fun x => x.1 = i).map Prod.snd) =
        (List.range n).flatMap fun i => (z.filter fun x => x.1 = i).map Prod.snd := by
      refine List.flatMap_congr fun i hi => ?_
      rw [List.filter_filter]
      congr 1
      refine List.filter_congr fun x _ => ?_
      have := List.mem_range.1 hi
      by_cases hx : x.1 = i
      · simp [hx]; omega
      · simp [hx]
    rw [h2] at h1
    refine List.Perm.trans ?_ (h1.append_right _)
    rw [← List.map_append]
    exact ((List.filter_append_perm (fun x => decide (x.1 = n)) z).symm.trans List.perm_append_comm).map _

/-- C93 (standard output). After any history the lines on standard output are those of the requests, in some order between requests: each
can be given the number of a request such that those of one request are, in this order, the line that its runs have ended, once it has
got there, and the lines it has printed for guests. Nothing else is printed. -/
theorem C93_output (c : Cfg K) (h : List Ev) (s : Sys K) (out : List (List Char)) (hr : Verif.Print.run c (init c) h = .ok (s, out)) :
    Verif.Program.run c (init c) h = .ok s ∧
    ∃ tags : List Nat, tags.length = out.length ∧ (∀ i ∈ tags, i < s.jobs.length) ∧
      (∀ (i : Nat) b, s.jobs[i]? = some b → ((tags.zip out).filter fun x => x.1 = i).map Prod.snd = jobText b) ∧
      out.Perm (s.jobs.flatMap jobText) := by
  have key : ∀ (h : List Ev) (s0 s : Sys K) (out : List (List Char)), Verif.Print.run c s0 h = .ok (s, out) →
      Verif.Program.run c s0 h = .ok s ∧ ∀ (t0 : List Nat) (o0 : List (List Char)), t0.length = o0.length → (∀ i ∈ t0, i < s0.jobs.length) →
        (∀ (i : Nat) b, s0.jobs[i]? = some b → (¬ (b.pc = .printing ∨ b.pc = .ended) → b.lines = []) ∧
          ((t0.zip o0).filter fun x => x.1 = i).map Prod.snd = jobText b) →
        ∃ t, t.length = out.length ∧ (∀ i ∈ t0 ++ t, i < s.jobs.length) ∧
          ∀ (i : Nat) b, s.jobs[i]? = some b → (((t0 ++ t).zip (o0 ++ out)).filter fun x => x.1 = i).map Prod.snd = jobText b := by
    intro h
    induction h with
    | nil =>
      intro s0 s out hr
      rw [Verif.Print.run] at hr
      have hr := Outcome.ok.inj hr
      rw [Prod.mk.injEq] at hr
      obtain ⟨rfl, rfl⟩ := hr
      exact ⟨rfl, fun t0 o0 _ h2 h3 => ⟨[], rfl, by simpa using h2, fun i b hb => by simpa using (h3 i b hb).2⟩⟩
    | cons e h ih =>
      intro s0 s out hr
      rw [Verif.Print.run, Outcome.bind_eq_ok] at hr
      obtain ⟨s1, h1, hr⟩ := hr
      rw [Outcome.bind_eq_ok] at hr
      obtain ⟨⟨s2, o2⟩, h2, hr⟩ := hr
      have hr := Outcome.ok.inj hr
      rw [Prod.mk.injEq] at hr
      dsimp only at hr
      obtain ⟨rfl, rfl⟩ := hr
      obtain ⟨i1, i2⟩ := ih s1 s2 o2 h2
      refine ⟨by rw [Verif.Program.run, h1, Outcome.bind_ok]; exact i1, fun t0 o0 g1 g2 g3 => ?_⟩
      by_cases he : ∃ i g, e = .job i g
      · obtain ⟨i, g, rfl⟩ := he
        obtain ⟨b, b', hb, ej, hx⟩ := job_text (c := c) (s := s0) (s' := s1) (i := i) (g := g) h1
        obtain ⟨hx1, hx2⟩ := hx (g3 i b hb).1
        have hi : i < s0.jobs.length := (List.getElem?_eq_some_iff.1 hb).1
        obtain ⟨t, a1, a2, a3⟩ := i2 (t0 ++ List.replicate (printedBy c s0 (.job i g)).length i) (o0 ++ printedBy c s0 (.job i g))
          (by simp [g1]) (by
            intro k hk
            rw [ej, List.length_set]
            rcases List.mem_append.1 hk with hk | hk
            · exact g2 k hk
            · rw [(List.mem_replicate.1 hk).2]; exact hi)
          (by
            intro k d hd
            rw [ej] at hd
            rw [List.zip_append g1, List.filter_append, List.map_append]
            by_cases hk : i = k
            · subst hk
              rw [List.getElem?_set_self hi] at hd
              have hd := Option.some.inj hd
              subst hd
              refine ⟨hx1, ?_⟩
              rw [(g3 i b hb).2, hx2]
              congr 1
              generalize printedBy c s0 (.job i g) = l
              induction l with
              | nil => rfl
              | cons x l ihl => simp [List.replicate_succ] at ihl ⊢; exact ihl
            · rw [List.getElem?_set_ne hk] at hd
              refine ⟨(g3 k d hd).1, ?_⟩
              rw [(g3 k d hd).2]
              have : ((List.replicate (printedBy c s0 (.job i g)).length i).zip (printedBy c s0 (.job i g))).filter (fun x => x.1 = k) = [] := by
                rw [List.filter_eq_nil_iff]
                rintro ⟨x, y⟩ hxy
                have := (List.of_mem_zip hxy).1
                rw [(List.mem_replicate.1 this).2]
                simpa using hk
              rw [this, List.map_nil, List.append_nil])
        refine ⟨List.replicate (printedBy c s0 (.job i g)).length i ++ t, by simp [a1], ?_, ?_⟩
        · rw [← List.append_assoc]; exact a2
        · rw [← List.append_assoc, ← List.append_assoc]; exact a3
      · have he : ∀ i g, e ≠ .job i g := fun i g x => he ⟨i, g, x⟩
        have hp : printedBy c s0 e = [] := by
          cases e with
          | job i g => exact absurd rfl (he i g)
          | _ => rfl
        rw [hp, List.nil_append]
        refine i2 t0 o0 g1 ?_ ?_
        · intro k hk
          rcases other_jobs he h1 with ej | ⟨j, ej⟩ <;> rw [ej]
          · exact g2 k hk
          · rw [List.length_append]; exact Nat.lt_of_lt_of_le (g2 k hk) (Nat.le_add_right ..)
        · intro k d hd
          rcases other_jobs he h1 with ej | ⟨j, ej⟩ <;> rw [ej] at hd
          · exact g3 k d hd
          · by_cases hk : k < s0.jobs.length
            · rw [List.getElem?_append_left hk] at hd
              exact g3 k d hd
            · have hk2 : k < (s0.jobs ++ [(⟨j, .registering, [], [], []⟩ : JobSt)]).length := (List.getElem?_eq_some_iff.1 hd).1
              have hk3 : k = s0.jobs.length := by simp at hk2; omega
              subst hk3
              rw [List.getElem?_concat_length] at hd
              have hd := Option.some.inj hd
              subst hd
              refine ⟨fun _ => rfl, ?_⟩
              have : (t0.zip o0).filter (fun x => x.1 = s0.jobs.length) = [] := by
                rw [List.filter_eq_nil_iff]
                rintro ⟨x, y⟩ hxy
                have := g2 x (List.of_mem_zip hxy).1
                simp; omega
              rw [this]
              simp [jobText]
  obtain ⟨h1, h2⟩ := key h (init c) s out hr
  obtain ⟨t, g1, g2, g3⟩ := h2 [] [] rfl (fun i hi => absurd hi List.not_mem_nil) (fun i b hb => by cases hb)
  refine ⟨h1, t, g1, g2, g3, ?_⟩
  have h3 := by_tags (z := t.zip out) (n := s.jobs.length) (fun x hx => g2 x.1 (List.of_mem_zip (a := x.1) (b := x.2) hx).1)
  rw [List.map_snd_zip (by omega)] at h3
  refine h3.trans (List.Perm.of_eq ?_)
  have h4 : s.jobs.flatMap jobText = (List.range s.jobs.length).flatMap fun i => (s.jobs[i]?.map jobText).getD [] := by
    clear h1 h2 g1 g2 g3 h3 hr
    generalize s.jobs = l
    induction l using List.reverseRecOn with
    | nil => rfl
    | append_singleton l b ih =>
      rw [List.flatMap_append, List.flatMap_singleton, List.length_append, List.length_singleton, List.range_succ, List.flatMap_append,
        List.flatMap_singleton, List.getElem?_concat_length, ih]
      congr 1
      refine List.flatMap_congr fun i hi => ?_
      rw [List.getElem?_append_left (List.mem_range.1 hi)]
  rw [h4]
  refine List.flatMap_congr fun i hi => ?_
  have hl := List.mem_range.1 hi
  have := g3 i s.jobs[i] (List.getElem?_eq_getElem hl)
  rw [List.getElem?_eq_getElem hl]
  exact this

end Verif.Props.Print
