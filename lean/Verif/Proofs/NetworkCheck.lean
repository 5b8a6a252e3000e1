import Verif.Proofs.Network

/-! A check of histories of processes with the network between them, for examples. -/
namespace Verif.Network
open Verif.Prot Verif.Dkg Verif.Spec.Network Verif.Spec.NetCaller
open Verif.Props.NetCaller (inv_init inv_run)
variable {ι S E : Type} [DecidableEq ι] {N : Net ι S E}

theorem calls_mono {s s' : Sys ι S E} {h : List (Ev ι E)} (hs : run N s h = .ok s') (p : ι) (k : Int × Int) (x : Int) :
    (s.callers p k x).calls.length ≤ (s'.callers p k x).calls.length := by
  induction h generalizing s with
  | nil => rw [run] at hs; rw [← Outcome.ok.inj hs]
  | cons e h ih =>
    rw [run, Outcome.bind_eq_ok] at hs
    obtain ⟨s1, h1, h2⟩ := hs
    refine le_trans ?_ (ih h2)
    rcases net_calls h1 p k x with e | ⟨_, _, _, _, _, _, e⟩
    · rw [e]
    · rw [e, List.length_append]; omega

/-- The queues of some processes that lead to one of them. -/
def queues (N : Net ι S E) (ps : List ι) : List (ι × (Int × Int) × Int) :=
  ps.flatMap fun p => (N.routes p).flatMap fun r => ((List.range r.2.length).filter fun y : Nat => match addr N p r.1 y with
    | none => false
    | some a => ps.any fun q => decide (a ∈ N.listen q)).map fun y : Nat => (p, r.1, (y : Int))

omit [DecidableEq ι] in
theorem mem_queues {ps : List ι} (hps : ∀ p, p ∈ ps) {p : ι} {k : Int × Int} {x : Int} (ha : Leads N p k x) : (p, k, x) ∈ queues N ps := by
  obtain ⟨a, q, ha, hq⟩ := ha
  have ha' := ha
  rw [addr] at ha
  cases hr : (N.routes p).get? k with
  | none => rw [hr] at ha; cases ha
  | some qs =>
    rw [hr] at ha
    dsimp only at ha
    rw [queues, List.mem_flatMap]
    have hmem : (k, qs) ∈ N.routes p := by
      rw [GoMap.get?, Option.map_eq_some_iff] at hr
      obtain ⟨r, h1, rfl⟩ := hr
      have h2 := List.find?_some h1
      have := of_decide_eq_true h2
      rw [← this]
      exact List.mem_of_find?_eq_some h1
    refine ⟨p, hps p, List.mem_flatMap.2 ⟨(k, qs), hmem, List.mem_map.2 ⟨x.toNat, ?_⟩⟩⟩
    rw [Start.queueOf] at ha
    by_cases hx : 0 ≤ x
    · rw [if_pos hx] at ha
      refine ⟨List.mem_filter.2 ⟨List.mem_range.2 ?_, ?_⟩, by rw [Int.toNat_of_nonneg hx]⟩
      · by_contra hn
        rw [List.getElem?_eq_none (not_lt.1 hn)] at ha
        cases ha
      · dsimp only
        rw [Int.toNat_of_nonneg hx, ha']
        dsimp only
        exact List.any_eq_true.2 ⟨q, hps q, decide_eq_true hq⟩
    · rw [if_neg hx] at ha; cases ha

section
variable (N : Net ι S E) (clock : S → Int) (room : S → Message Dto → Bool) (qs : List (ι × (Int × Int) × Int))

/-- Everything was accepted. -/
def allIn (s : Sys ι S E) : Bool :=
  qs.all fun q => let c := s.callers q.1 q.2.1 q.2.2; decide (c.accepted.length = c.offered.length)

/-- Everything has been delivered, if the clock goes on. -/
def allOut (s s' : Sys ι S E) : Bool :=
  qs.all fun q => decide (clock (s'.procs q.1) = clock (s.procs q.1)) ||
    let c := s.callers q.1 q.2.1 q.2.2; decide (c.accepted.length ≤ c.calls.length)

/-- The event is one of a network that works. -/
def fine (s : Sys ι S E) : Ev ι E → Bool
  | .caller _ _ _ .selDrop => false
  | .call p k x ok r => ok && match r with
    | none => true
    | some r => (match (s.callers p k x).msg with
      | none => true
      | some m => room (s.procs r) m) &&
      decide (clock (s.procs p) - 30 < clock (s.procs r)) && decide (clock (s.procs r) < clock (s.procs p) + 30)
  | _ => true

/-- The history is one of a network that works. -/
def check (fin : Sys ι S E → Bool) : Sys ι S E → List (Ev ι E) → Bool
  | s, [] => allIn qs s && fin s
  | s, e :: h => allIn qs s && fine clock room s e && match step N s e with
    | .ok s' => allOut clock qs s s' && check fin s' h
    | _ => false
end

variable {clock : S → Int} {room : S → Message Dto → Bool} {qs : List (ι × (Int × Int) × Int)} {fin : Sys ι S E → Bool}

theorem check_run {s : Sys ι S E} {h : List (Ev ι E)} (hc : check N clock room qs fin s h = true) : ∃ s', run N s h = .ok s' ∧ fin s' = true := by
  induction h generalizing s with
  | nil => rw [check, Bool.and_eq_true] at hc; exact ⟨s, rfl, hc.2⟩
  | cons e h ih =>
    rw [check, Bool.and_eq_true] at hc
    obtain ⟨_, h2⟩ := hc
    cases hs : step N s e with
    | ok s' =>
      rw [hs] at h2
      dsimp only at h2
      rw [Bool.and_eq_true] at h2
      obtain ⟨s1, h3, h4⟩ := ih h2.2
      exact ⟨s1, by rw [run, hs, Outcome.bind_ok]; exact h3, h4⟩
    | err => rw [hs] at h2; cases h2
    | panic => rw [hs] at h2; cases h2

theorem check_append {s s' : Sys ι S E} {g h : List (Ev ι E)} (hc : check N clock room qs fin s (g ++ h) = true) (hr : run N s g = .ok s') :
    check N clock room qs fin s' h = true := by
  induction g generalizing s with
  | nil => rw [run] at hr; rw [← Outcome.ok.inj hr]; exact hc
  | cons e g ih =>
    rw [run, Outcome.bind_eq_ok] at hr
    obtain ⟨s1, h1, h2⟩ := hr
    rw [List.cons_append, check, Bool.and_eq_true, h1] at hc
    have := hc.2
    dsimp only at this
    rw [Bool.and_eq_true] at this
    exact ih this.2 h2

theorem check_in {s : Sys ι S E} {h : List (Ev ι E)} (hc : check N clock room qs fin s h = true) : allIn qs s = true := by
  cases h with
  | nil => rw [check, Bool.and_eq_true] at hc; exact hc.1
  | cons e h => rw [check, Bool.and_eq_true, Bool.and_eq_true] at hc; exact hc.1.1

theorem check_works {R : S → Message Dto → Prop} (hR : ∀ s m, room s m = true → R s m) (hq : ∀ p k x, Leads N p k x → (p, k, x) ∈ qs)
    {h : List (Ev ι E)} (hc : check N clock room qs fin (init N) h = true) : Works N clock R h := by
  have hfine : ∀ g1 e g2 s, h = g1 ++ e :: g2 → run N (init N) g1 = .ok s → fine clock room s e = true := by
    intro g1 e g2 s hh hr
    rw [hh] at hc
    have := check_append hc hr
    rw [check, Bool.and_eq_true, Bool.and_eq_true] at this
    exact this.1.2
  have hfine' : ∀ e ∈ h, ∃ s, fine clock room s e = true := by
    intro e he
    obtain ⟨g1, g2, rfl⟩ := List.append_of_mem he
    obtain ⟨s', h1, _⟩ := check_run hc
    rw [run_append, Outcome.bind_eq_ok] at h1
    obtain ⟨s, h1, _⟩ := h1
    exact ⟨s, hfine g1 e g2 s rfl h1⟩
  have hout : ∀ g1 g2, h = g1 ++ g2 → ∀ s, run N (init N) g1 = .ok s → ∀ p k x, Leads N p k x →
      (s.callers p k x).accepted = (s.callers p k x).offered := by
    intro g1 g2 hh s hr p k x ha
    obtain ⟨ch, h1, _⟩ := (Inv.init.run hr).caller p k x
    refine (inv_run inv_init h1).sub.eq_of_length ?_
    rw [hh] at hc
    have := check_in (check_append hc hr)
    rw [allIn, List.all_eq_true] at this
    exact of_decide_eq_true (this _ (hq p k x ha))
  refine ⟨?_, ?_, hout, ?_, ?_⟩
  · intro p k x ok r he _
    obtain ⟨s, h1⟩ := hfine' _ he
    rw [fine.eq_def] at h1
    dsimp only at h1
    rw [Bool.and_eq_true] at h1
    exact h1.1
  · intro p k x _ he
    obtain ⟨s, h1⟩ := hfine' _ he
    cases h1
  · intro g1 g2 g3 hh s s' hr hr' p k x ha ht
    have hmem := hq p k x ha
    rw [run_append, hr, Outcome.bind_ok] at hr'
    have hacc : ∀ l r, g2 = l ++ r → ∀ s1, run N s l = .ok s1 → (s.callers p k x).accepted.length ≤ (s1.callers p k x).accepted.length := by
      intro l r e s1 h1
      rw [hout g1 _ hh s hr p k x ha, hout (g1 ++ l) (r ++ g3) (by rw [hh, e]; simp) s1 (by rw [run_append, hr, Outcome.bind_ok]; exact h1) p k x ha]
      exact (offered_mono h1 p k x).length_le
    have hpass : ∀ r l s1, g2 = l ++ r → run N s l = .ok s1 → run N s1 r = .ok s' → clock (s1.procs p) = clock (s.procs p) →
        (s.callers p k x).accepted.length ≤ (s'.callers p k x).calls.length := by
      intro r
      induction r with
      | nil =>
        intro l s1 _ _ h2 h3
        rw [run] at h2
        rw [← Outcome.ok.inj h2] at ht
        omega
      | cons e r ih =>
        intro l s1 e1 h1 h2 h3
        have h2' := h2
        rw [run, Outcome.bind_eq_ok] at h2
        obtain ⟨s2, h4, h5⟩ := h2
        by_cases hcl : clock (s2.procs p) = clock (s1.procs p)
        · exact ih (l ++ [e]) s2 (by rw [e1]; simp) (by rw [run_append, h1, Outcome.bind_ok, run, h4, Outcome.bind_ok, run]) h5 (hcl.trans h3)
        · have hall := check_append (g := g1 ++ l) (h := e :: (r ++ g3)) (by rw [hh, e1] at hc; simpa using hc)
            (by rw [run_append, hr, Outcome.bind_ok]; exact h1)
          rw [check, Bool.and_eq_true, h4] at hall
          have hall := hall.2
          dsimp only at hall
          rw [Bool.and_eq_true, allOut, List.all_eq_true] at hall
          have := hall.1 _ hmem
          dsimp only at this
          rw [Bool.or_eq_true, decide_eq_true_eq, decide_eq_true_eq] at this
          rcases this with h | h
          · exact absurd h hcl
          · exact (hacc l _ e1 s1 h1).trans (h.trans (calls_mono h2' p k x))
    exact hpass g2 [] s rfl (by rw [run]) hr' rfl
  · intro g1 p k x ok r g2 hh s m hr hm
    have := hfine _ _ _ s hh hr
    rw [fine.eq_def] at this
    dsimp only at this
    rw [Bool.and_eq_true, hm] at this
    have := this.2
    dsimp only at this
    rw [Bool.and_eq_true, Bool.and_eq_true, decide_eq_true_eq, decide_eq_true_eq] at this
    exact ⟨hR _ _ this.1.1, this.1.2, this.2⟩

end Verif.Network
