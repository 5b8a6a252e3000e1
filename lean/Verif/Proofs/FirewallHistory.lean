import Verif.Proofs.Firewall
import Verif.Spec.Firewall
import Mathlib.Data.List.Induction

/-! What a history says agrees with the firewall's state. -/
namespace Verif.Firewall
open Verif.Spec.Firewall
variable {D : Type}

/-- Sections finished by the thread of call `i`. -/
def sec (f : Fw D) (i : Nat) : Nat := ((f.calls[i]?).map Call.sections).getD 0

theorem sec_some {f : Fw D} {i : Nat} {c : Call} (h : f.calls[i]? = some c) : sec f i = c.sections := by rw [sec, h]; rfl

/-- How an event changes the calls. -/
theorem step_calls {f f' : Fw D} {e : Ev D} (hs : step f e = .ok f') :
    (f'.calls.map (fun c => (c.key, c.allow)) = f.calls.map (fun c => (c.key, c.allow)) ++ allows [e]) ∧
    (∀ i, sec f' i = sec f i + steps i [e]) ∧
    (∀ (i : Nat) (c' : Call), f'.calls[i]? = some c' → (∃ c, f.calls[i]? = some c ∧ c'.key = c.key ∧ c'.live = c.live) ∨
      (i = f.calls.length ∧ (c'.live = true → f.allowances.get? c'.key = none))) := by
  have same : ∀ g : Fw D, g.calls = f.calls → (allows [e] = []) → (∀ i, steps i [e] = 0) →
      (g.calls.map (fun c => (c.key, c.allow)) = f.calls.map (fun c => (c.key, c.allow)) ++ allows [e]) ∧
      (∀ i, sec g i = sec f i + steps i [e]) ∧
      (∀ (i : Nat) (c' : Call), g.calls[i]? = some c' → (∃ c, f.calls[i]? = some c ∧ c'.key = c.key ∧ c'.live = c.live) ∨
        (i = f.calls.length ∧ (c'.live = true → f.allowances.get? c'.key = none))) := by
    intro g hg ha hst
    refine ⟨by rw [hg, ha, List.append_nil], fun i => by rw [sec, hg, hst]; rfl, fun i c' hc => .inl ⟨c', ?_, rfl, rfl⟩⟩
    rw [← hg]; exact hc
  have upd : ∀ (g : Fw D) (j : Nat) (c c' : Call), f.calls[j]? = some c → g.calls = f.calls.set j c' → c'.key = c.key →
      c'.allow = c.allow → c'.live = c.live → (allows [e] = []) → c'.sections = c.sections + steps j [e] →
      (∀ i, i ≠ j → steps i [e] = 0) →
      (g.calls.map (fun c => (c.key, c.allow)) = f.calls.map (fun c => (c.key, c.allow)) ++ allows [e]) ∧
      (∀ i, sec g i = sec f i + steps i [e]) ∧
      (∀ (i : Nat) (c' : Call), g.calls[i]? = some c' → (∃ c, f.calls[i]? = some c ∧ c'.key = c.key ∧ c'.live = c.live) ∨
        (i = f.calls.length ∧ (c'.live = true → f.allowances.get? c'.key = none))) := by
    intro g j c c' hc hg hk ha hl hal hse hst
    refine ⟨?_, ?_, ?_⟩
    · rw [hg, hal, List.append_nil]
      apply List.ext_getElem?
      intro n
      rw [List.getElem?_map, List.getElem?_map]
      by_cases e : n = j
      · subst e; rw [getElem?_set_self _ hc, hc]; simp [hk, ha]
      · rw [getElem?_set_other _ e]
    · intro i
      by_cases e : i = j
      · subst e
        rw [sec_some (c := c') (by rw [hg]; exact getElem?_set_self _ hc), sec_some hc, hse]
      · rw [hst i e, sec, hg, getElem?_set_other _ e]; rfl
    · intro i d hd
      rw [hg] at hd
      rcases getElem?_set_some hc hd with ⟨rfl, rfl⟩ | ⟨_, hd1⟩
      · exact .inl ⟨c, hc, hk, hl⟩
      · exact .inl ⟨d, hd1, rfl, rfl⟩
  cases e with
  | tick t => obtain ⟨_, rfl⟩ := step_tick_cases hs; exact same _ rfl rfl (fun _ => rfl)
  | latch => obtain ⟨_, _, rfl⟩ := step_latch_cases hs; exact same _ rfl rfl (fun _ => rfl)
  | msg m =>
    rw [step] at hs
    rw [← Outcome.ok.inj hs]
    refine same _ ?_ rfl (fun _ => rfl)
    rcases process_cases f m with e | ⟨_, _, _, _, e⟩ | ⟨_, _, _, e⟩ <;> rw [e]
  | read i =>
    obtain ⟨c, hc, _, rfl⟩ := step_read_cases hs
    exact upd _ i c _ hc rfl rfl rfl rfl rfl rfl (fun _ _ => rfl)
  | step i =>
    rw [step] at hs
    have h1 : steps i [(Ev.step i : Ev D)] = 1 := by simp [steps]
    have h0 : ∀ j, j ≠ i → steps j [(Ev.step i : Ev D)] = 0 := fun j hj => by rw [steps, if_neg (fun e => hj e.symm)]; rfl
    obtain ⟨c, hc, hl, ⟨h2, rfl⟩ | ⟨h2, _, _, rfl⟩ | ⟨h2, _, _, rfl⟩ | ⟨h2, _, _, rfl⟩⟩ := stateStep_cases hs
    all_goals exact upd _ i c _ hc rfl rfl rfl rfl rfl (by rw [h1, h2]) h0
  | allow k a =>
    rw [step] at hs
    have fin : ∀ (g : Fw D) (b : Bool), g.calls = f.calls ++ [⟨k, a, b, 0, ⟨0, 0, 0⟩, []⟩] →
        (b = true → f.allowances.get? k = none) →
        (g.calls.map (fun c => (c.key, c.allow)) = f.calls.map (fun c => (c.key, c.allow)) ++ allows [(Ev.allow k a : Ev D)]) ∧
        (∀ i, sec g i = sec f i + steps i [(Ev.allow k a : Ev D)]) ∧
        (∀ (i : Nat) (c' : Call), g.calls[i]? = some c' → (∃ c, f.calls[i]? = some c ∧ c'.key = c.key ∧ c'.live = c.live) ∨
          (i = f.calls.length ∧ (c'.live = true → f.allowances.get? c'.key = none))) := by
      intro g b hg hb
      refine ⟨by rw [hg, List.map_append]; rfl, ?_, ?_⟩
      · intro i
        change sec g i = sec f i
        rw [sec, sec, hg, List.getElem?_append]
        by_cases e : i < f.calls.length
        · rw [if_pos e]
        · rw [if_neg e, List.getElem?_eq_none (by omega : f.calls.length ≤ i)]
          by_cases e2 : i - f.calls.length = 0
          · rw [e2]; rfl
          · rw [List.getElem?_eq_none (by simp; omega)]
      · intro i c' hc
        rw [hg] at hc
        rcases getElem?_concat_some hc with ⟨h1, rfl⟩ | ⟨_, h2⟩
        · exact .inr ⟨h1, hb⟩
        · exact .inl ⟨c', h2, rfl, rfl⟩
    obtain ⟨_, ⟨b, hb, rfl⟩ | ⟨hb, rfl⟩⟩ := setAllowance_cases hs
    · exact fin _ false rfl (by simp)
    · exact fin _ true rfl (fun _ => hb)

theorem flat_same {α : Type} {n : Nat} {G G' : Nat → List α} (h : ∀ i, i < n → G' i = G i) :
    (List.range n).flatMap G' = (List.range n).flatMap G := by
  induction n with
  | zero => rfl
  | succ n ih =>
    rw [List.range_succ, List.flatMap_append, List.flatMap_append, ih (fun i hi => h i (by omega))]
    simp [h n (by omega)]

theorem flat_update {α : Type} {n : Nat} {G G' : Nat → List α} {i0 : Nat} {X : List α} (hi : i0 < n)
    (h : ∀ i, i < n → i ≠ i0 → G' i = G i) (h0 : G' i0 = G i0 ++ X) (hl : ∀ i, i < n → i0 < i → G i = []) :
    (List.range n).flatMap G' = (List.range n).flatMap G ++ X := by
  induction n with
  | zero => omega
  | succ n ih =>
    rw [List.range_succ, List.flatMap_append, List.flatMap_append]
    by_cases e : i0 = n
    · subst e
      rw [flat_same (G := G) (G' := G') (fun i hi => h i (by omega) (by omega))]
      simp [h0]
    · rw [ih (by omega) (fun i hi hne => h i (by omega) hne) (fun i hi hlt => hl i (by omega) hlt)]
      have e1 : G n = [] := hl n (by omega) (by omega)
      have e2 : G' n = G n := h n (by omega) (fun x => e x.symm)
      simp [e1, e2]

/-- The contribution of call `i` to what passes for `k`. -/
def contrib (b : Bool) (k : RunKey) (h : List (Ev D)) (i : Nat) : List (Message D) :=
  if ((allows h)[i]?).map Prod.fst = some k then passed b k h i else []

theorem passedAll_eq (b : Bool) (k : RunKey) (h : List (Ev D)) :
    passedAll b k h = (List.range (allows h).length).flatMap (contrib b k h) := rfl

theorem receivedIn_append (b : Bool) (k : RunKey) (i n : Nat) (h : List (Ev D)) (e : Ev D) :
    receivedIn b k i n (h ++ [e]) = receivedIn b k i n h ++
      match e with | .msg m => if latched b h = true ∧ m.key = k ∧ steps i h = n then [m] else [] | _ => [] := by
  rw [receivedIn, receivedWhen_append]
  cases e with
  | msg m => simp only [receivedIn, Bool.and_eq_true, decide_eq_true_eq, and_assoc]
  | _ => rfl

theorem passed_msg (b : Bool) (k : RunKey) (h : List (Ev D)) (i : Nat) (m : Message D) :
    passed b k (h ++ [.msg m]) i = passed b k h i ++ if latched b h = true ∧ m.key = k ∧ steps i h = 3 then [m] else [] := by
  rw [passed, passed, receivedIn_append, receivedIn_append, steps_append]
  have : steps i [(Ev.msg m : Ev D)] = 0 := rfl
  rw [this, Nat.add_zero]
  by_cases h3 : 3 ≤ steps i h
  · have : ¬ (latched b h = true ∧ m.key = k ∧ steps i h = 2) := by rintro ⟨_, _, x⟩; omega
    simp only [if_pos h3, if_neg this, List.append_nil, List.append_assoc]
  · simp only [if_neg h3, List.nil_append]

theorem passed_zero (b : Bool) (k : RunKey) (h : List (Ev D)) (i : Nat) (h0 : steps i h < 3) : passed b k h i = [] := by
  rw [passed, if_neg (by omega), receivedIn_nil _ _ _ _ _ h0]; rfl

/-- The history and the state agree. -/
structure Agree (b : Bool) (t0 : Int) (h : List (Ev D)) (f : Fw D) : Prop where
  inv : Inv f
  now : f.now = clock t0 h
  drop : f.dropAll = !latched b h
  calls : f.calls.map (fun c => (c.key, c.allow)) = allows h
  secs : ∀ i, sec f i = steps i h
  order : ∀ i c j d, Act f i c → f.calls[j]? = some d → i < j → d.key = c.key → d.live = false
  buf : ∀ i c, Act f i c → c.sections = 2 → (f.buffer.get? c.key).getD [] = (receivedIn b c.key i 2 h).take 2048
  out : ∀ k, f.out.filter (fun m => decide (m.key = k)) = passedAll b k h

theorem Agree.length {b : Bool} {t0 : Int} {h : List (Ev D)} {f : Fw D} (a : Agree b t0 h f) : (allows h).length = f.calls.length := by
  rw [← a.calls, List.length_map]

theorem Agree.keyAt {b : Bool} {t0 : Int} {h : List (Ev D)} {f : Fw D} (a : Agree b t0 h f) {i : Nat} {c : Call}
    (hc : f.calls[i]? = some c) : (allows h)[i]? = some (c.key, c.allow) := by
  rw [← a.calls, List.getElem?_map, hc]; rfl

theorem Agree.callAt {b : Bool} {t0 : Int} {h : List (Ev D)} {f : Fw D} (a : Agree b t0 h f) {i : Nat} {k : RunKey}
    (hk : ((allows h)[i]?).map Prod.fst = some k) : ∃ c, f.calls[i]? = some c ∧ c.key = k ∧ c.sections = steps i h := by
  rw [← a.calls, List.getElem?_map] at hk
  cases hc : f.calls[i]? with
  | none => rw [hc] at hk; cases hk
  | some c => rw [hc] at hk; exact ⟨c, rfl, Option.some.inj hk, by rw [← a.secs, sec_some hc]⟩

/-- Calls after an active call for the same key contribute nothing. -/
theorem Agree.later {b : Bool} {t0 : Int} {h : List (Ev D)} {f : Fw D} (a : Agree b t0 h f) {i j : Nat} {c : Call}
    (ha : Act f i c) (hij : i < j) : contrib b c.key h j = [] := by
  rw [contrib]
  by_cases hk : ((allows h)[j]?).map Prod.fst = some c.key
  · obtain ⟨d, hd, hdk, hds⟩ := a.callAt hk
    have hl := a.order i c j d ha hd hij hdk
    have := (a.inv.obs j d hd).2.2 hl
    rw [if_pos hk]
    exact passed_zero _ _ _ _ (by omega)
  · rw [if_neg hk]

/-- A call whose thread has finished two or three sections is active. -/
theorem Agree.active {b : Bool} {t0 : Int} {h : List (Ev D)} {f : Fw D} (a : Agree b t0 h f) {i : Nat} {c : Call}
    (hc : f.calls[i]? = some c) (h1 : 1 ≤ c.sections) (h2 : c.sections < 4) : Act f i c := by
  refine ⟨hc, ?_, h2⟩
  by_contra hl
  rw [Bool.not_eq_true] at hl
  have := (a.inv.obs i c hc).2.2 hl
  omega

theorem contrib_msg (b : Bool) (k : RunKey) (h : List (Ev D)) (i : Nat) (m : Message D) :
    contrib b k (h ++ [.msg m]) i = contrib b k h i ++
      if ((allows h)[i]?).map Prod.fst = some k ∧ latched b h = true ∧ m.key = k ∧ steps i h = 3 then [m] else [] := by
  have : allows (h ++ [(Ev.msg m : Ev D)]) = allows h := by rw [allows_append]; simp [allows]
  rw [contrib, contrib, this]
  by_cases hk : ((allows h)[i]?).map Prod.fst = some k
  · rw [if_pos hk, if_pos hk, passed_msg]
    simp only [hk, true_and]
  · rw [if_neg hk, if_neg hk, if_neg (fun x => hk x.1)]; rfl

theorem agree_msg {b : Bool} {t0 : Int} {h : List (Ev D)} {f : Fw D} (a : Agree b t0 h f) (m : Message D) :
    Agree b t0 (h ++ [.msg m]) (process f m) := by
  have hal : allows (h ++ [(Ev.msg m : Ev D)]) = allows h := by rw [allows_append]; simp [allows]
  have hst : ∀ i, steps i (h ++ [(Ev.msg m : Ev D)]) = steps i h := fun i => by rw [steps_append]; rfl
  have hla : latched b (h ++ [(Ev.msg m : Ev D)]) = latched b h := by rw [latched_append]
  have hcl : clock t0 (h ++ [(Ev.msg m : Ev D)]) = clock t0 h := by rw [clock_append]
  -- what is common: everything but the buffers and the output
  have fin : ∀ g : Fw D, process f m = g → g.now = f.now → g.dropAll = f.dropAll → g.calls = f.calls →
      (∀ i c, Act f i c → c.sections = 2 → (g.buffer.get? c.key).getD [] = (receivedIn b c.key i 2 (h ++ [.msg m])).take 2048) →
      (∀ k, g.out.filter (fun m => decide (m.key = k)) = passedAll b k (h ++ [.msg m])) →
      Agree b t0 (h ++ [.msg m]) g := by
    intro g hg g1 g2 g3 g4 g5
    refine ⟨?_, by rw [g1, hcl, a.now], by rw [g2, hla, a.drop], by rw [g3, hal, a.calls], ?_, ?_, ?_, g5⟩
    · rw [← hg]; exact inv_process a.inv m
    · intro i; rw [hst, ← a.secs, sec, sec, g3]
    · intro i c j d hi hj; rw [g3] at hj; exact a.order i c j d ⟨by rw [← g3]; exact hi.1, hi.2⟩ hj
    · intro i c hi; exact g4 i c ⟨by rw [← g3]; exact hi.1, hi.2⟩
  by_cases hA : latched b h = true ∧ ∃ (i : Nat) (c : Call), f.calls[i]? = some c ∧ c.key = m.key ∧ (c.sections = 2 ∨ c.sections = 3)
  · obtain ⟨hlat, i0, c0, hc0, hk0, hs0⟩ := hA
    have ha0 : Act f i0 c0 := a.active hc0 (by omega) (by omega)
    have hv : messageValid f m = true := by rw [messageValid_eq, ← hk0]; exact a.inv.keys _ _ hc0
    have hd : f.dropAll = false := by rw [a.drop, hlat]; rfl
    have hstate := (a.inv.act i0 c0 ha0).2
    rw [hk0] at hstate
    have huniq : ∀ (i : Nat) (c : Call), f.calls[i]? = some c → c.key = m.key → (c.sections = 2 ∨ c.sections = 3) → i = i0 :=
      fun i c hc hk hs => a.inv.uniq i c i0 c0 (a.active hc (by omega) (by omega)) ha0 (hk.trans hk0.symm)
    rcases hs0 with hs0 | hs0
    · -- buffering
      rw [hs0] at hstate
      have hproc : process f m = if ((f.buffer.get? m.key).getD []).length < bufMax then
          { f with buffer := f.buffer.set m.key ((f.buffer.get? m.key).getD [] ++ [m]) } else f := by
        rw [process, hd, hv, hstate]
        simp [buffering]
      have hout : ∀ k, f.out.filter (fun m => decide (m.key = k)) = passedAll b k (h ++ [.msg m]) := by
        intro k
        rw [a.out, passedAll_eq, passedAll_eq, hal]
        refine (flat_same (fun i hi => ?_)).symm
        rw [contrib_msg, if_neg, List.append_nil]
        rintro ⟨hk, _, hmk, h3⟩
        obtain ⟨c, hc, hck, hcs⟩ := a.callAt hk
        have := huniq i c hc (hck.trans hmk.symm) (by omega)
        subst this
        have := Option.some.inj (hc.symm.trans hc0)
        subst this; omega
      have hbuf0 := a.buf i0 c0 ha0 hs0
      have hrec : receivedIn b m.key i0 2 (h ++ [.msg m]) = receivedIn b m.key i0 2 h ++ [m] := by
        rw [receivedIn_append]
        dsimp only
        rw [if_pos ⟨hlat, rfl, by rw [← a.secs, sec_some hc0, hs0]⟩]
      have hrec' : ∀ i c, Act f i c → i ≠ i0 → receivedIn b c.key i 2 (h ++ [.msg m]) = receivedIn b c.key i 2 h := by
        intro i c hi hne
        rw [receivedIn_append]
        simp only
        rw [if_neg, List.append_nil]
        rintro ⟨_, hk, _⟩
        exact hne (a.inv.uniq i c i0 c0 hi ha0 (hk.symm.trans hk0.symm))
      rw [hk0] at hbuf0
      by_cases hl : ((f.buffer.get? m.key).getD []).length < bufMax
      · rw [if_pos hl] at hproc
        rw [hproc]
        refine fin _ hproc rfl rfl rfl ?_ hout
        intro i c hi hs
        simp only
        rw [GoMap.get?_set]
        by_cases hne : i = i0
        · subst hne
          have := Option.some.inj (hi.1.symm.trans hc0)
          subst this
          rw [hk0, if_pos rfl, Option.getD_some, hrec, hbuf0]
          rw [hbuf0, List.length_take, bufMax] at hl
          rw [List.take_of_length_le (by omega), List.take_of_length_le (by rw [List.length_append]; simp; omega)]
        · have hk : ¬ m.key = c.key := fun e => hne (a.inv.uniq i c i0 c0 hi ha0 (e.symm.trans hk0.symm))
          rw [if_neg hk, hrec' i c hi hne]; exact a.buf i c hi hs
      · rw [if_neg hl] at hproc
        rw [hproc]
        refine fin _ hproc rfl rfl rfl ?_ hout
        intro i c hi hs
        by_cases hne : i = i0
        · subst hne
          have := Option.some.inj (hi.1.symm.trans hc0)
          subst this
          rw [hk0, hrec, hbuf0]
          rw [hbuf0, List.length_take, bufMax] at hl
          rw [List.take_append_of_le_length (by omega)]
        · rw [hrec' i c hi hne]; exact a.buf i c hi hs
    · -- forwarding
      rw [hs0] at hstate
      have hproc : process f m = { f with out := f.out ++ [m] } := by
        rw [process, hd, hv, hstate]
        simp [buffering, forwarding]
      rw [hproc]
      refine fin _ hproc rfl rfl rfl ?_ ?_
      · intro i c hi hs
        rw [receivedIn_append]
        simp only
        rw [if_neg, List.append_nil]
        · exact a.buf i c hi hs
        · rintro ⟨_, hk, _⟩
          have := huniq i c hi.1 hk.symm (.inl hs)
          subst this
          have := Option.some.inj (hi.1.symm.trans hc0)
          subst this; omega
      · intro k
        simp only [List.filter_append]
        rw [a.out, passedAll_eq, passedAll_eq, hal]
        by_cases hk : m.key = k
        · subst hk
          have hcontr : ∀ i, contrib b m.key (h ++ [.msg m]) i = contrib b m.key h i ++ if i = i0 then [m] else [] := by
            intro i
            rw [contrib_msg]
            by_cases e : i = i0
            · subst e
              rw [if_pos rfl, if_pos]
              exact ⟨by rw [a.keyAt hc0]; simp [hk0], hlat, rfl, by rw [← a.secs, sec_some hc0, hs0]⟩
            · rw [if_neg e, if_neg]
              rintro ⟨hk, _, _, h3⟩
              obtain ⟨c, hc, hck, hcs⟩ := a.callAt hk
              exact e (huniq i c hc hck (by omega))
          have hi0 : i0 < (allows h).length := by
            rw [a.length]
            by_contra hcn
            rw [List.getElem?_eq_none (by omega)] at hc0; cases hc0
          rw [flat_update (i0 := i0) (X := [m]) (G := contrib b m.key h) (G' := contrib b m.key (h ++ [(Ev.msg m : Ev D)])) hi0 (fun i _ hne => by rw [hcontr, if_neg hne, List.append_nil])
            (by rw [hcontr, if_pos rfl]) (fun i _ hlt => by rw [← hk0]; exact a.later ha0 hlt)]
          simp
        · rw [flat_same (G := contrib b k h) (G' := contrib b k (h ++ [(Ev.msg m : Ev D)])) (fun i _ => by rw [contrib_msg, if_neg (fun x => hk x.2.2.1), List.append_nil])]
          simp [hk]
  · have hproc : process f m = f := by
      rcases process_cases f m with e | ⟨hd, _, hs, _, _⟩ | ⟨hd, _, hs, _⟩
      · exact e
      · exfalso; apply hA
        rw [a.drop] at hd
        obtain ⟨i, c, hi, hk⟩ := a.inv.stated _ _ hs
        have := (a.inv.act i c hi).2
        rw [hk, hs] at this
        have := Option.some.inj this
        rw [buffering] at this
        exact ⟨by simpa using hd, i, c, hi.1, hk, by omega⟩
      · exfalso; apply hA
        rw [a.drop] at hd
        obtain ⟨i, c, hi, hk⟩ := a.inv.stated _ _ hs
        have := (a.inv.act i c hi).2
        rw [hk, hs] at this
        have := Option.some.inj this
        rw [forwarding] at this
        exact ⟨by simpa using hd, i, c, hi.1, hk, by omega⟩
    rw [hproc]
    refine fin f hproc rfl rfl rfl ?_ ?_
    · intro i c hi hs
      rw [receivedIn_append]
      simp only
      rw [if_neg, List.append_nil]
      · exact a.buf i c hi hs
      · rintro ⟨hlat, hk, h2⟩
        exact hA ⟨hlat, i, c, hi.1, hk.symm, .inl hs⟩
    · intro k
      rw [a.out, passedAll_eq, passedAll_eq, hal]
      refine (flat_same (fun i _ => ?_)).symm
      rw [contrib_msg, if_neg, List.append_nil]
      rintro ⟨hk, hlat, hmk, h3⟩
      obtain ⟨c, hc, hck, hcs⟩ := a.callAt hk
      exact hA ⟨hlat, i, c, hc, hck.trans hmk.symm, .inr (by omega)⟩

theorem receivedIn_other (b : Bool) (k : RunKey) (i n : Nat) (h : List (Ev D)) (e : Ev D) (he : ∀ m, e ≠ .msg m) :
    receivedIn b k i n (h ++ [e]) = receivedIn b k i n h := by
  rw [receivedIn_append]
  cases e with
  | msg m => exact absurd rfl (he m)
  | _ => simp

/-- Events that move no thread and receive no message pass nothing. -/
theorem passedAll_idle (b : Bool) (k : RunKey) (h : List (Ev D)) (e : Ev D) (he : ∀ m, e ≠ .msg m) (hs : ∀ i, steps i [e] = 0)
    (hnew : ∀ i, (allows h).length ≤ i → steps i h = 0) : passedAll b k (h ++ [e]) = passedAll b k h := by
  have hp : ∀ i, passed b k (h ++ [e]) i = passed b k h i := by
    intro i
    rw [passed, passed, receivedIn_other _ _ _ _ _ _ he, receivedIn_other _ _ _ _ _ _ he, steps_append, hs, Nat.add_zero]
  by_cases hc : allows [e] = []
  · have hal : allows (h ++ [e]) = allows h := by rw [allows_append, hc, List.append_nil]
    rw [passedAll, passedAll, hal]
    exact flat_same (fun i _ => by rw [hp])
  · obtain ⟨x, hx⟩ : ∃ x, allows [e] = [x] := by
      cases e with
      | allow k a => exact ⟨_, rfl⟩
      | _ => exact absurd rfl hc
    rw [passedAll, passedAll, allows_append, hx, List.length_append, List.length_singleton, List.range_succ, List.flatMap_append]
    have hz : passed b k (h ++ [e]) (allows h).length = [] := by
      rw [hp]; exact passed_zero _ _ _ _ (by rw [hnew _ (le_refl _)]; omega)
    simp only [List.flatMap_singleton, hz, ite_self, List.append_nil]
    refine flat_same (fun i hi => ?_)
    rw [hp, List.getElem?_append_left hi]

theorem agree_step {b : Bool} {t0 : Int} {h : List (Ev D)} {f f' : Fw D} (a : Agree b t0 h f) {e : Ev D}
    (hs : step f e = .ok f') : Agree b t0 (h ++ [e]) f' := by
  by_cases hm : ∃ m, e = .msg m
  · obtain ⟨m, rfl⟩ := hm
    rw [step] at hs
    rw [← Outcome.ok.inj hs]; exact agree_msg a m
  have he : ∀ m, e ≠ .msg m := fun m x => hm ⟨m, x⟩
  obtain ⟨c1, c2, c3⟩ := step_calls hs
  have hinv := inv_step a.inv hs
  have hcalls : f'.calls.map (fun c => (c.key, c.allow)) = allows (h ++ [e]) := by rw [allows_append, ← a.calls]; exact c1
  have hsecs : ∀ i, sec f' i = steps i (h ++ [e]) := fun i => by rw [steps_append, ← a.secs]; exact c2 i
  have hnew : ∀ i, (allows h).length ≤ i → steps i h = 0 := by
    intro i hi
    rw [a.length] at hi
    rw [← a.secs, sec, List.getElem?_eq_none hi]; rfl
  have hrec : ∀ k i n, receivedIn b k i n (h ++ [e]) = receivedIn b k i n h := fun k i n => receivedIn_other b k i n h e he
  -- an active call was active before, or is new
  have hact : ∀ i c', Act f' i c' → (∃ c, Act f i c ∧ c.key = c'.key ∧ c'.sections = c.sections + steps i [e]) ∨
      (i = f.calls.length ∧ f.allowances.get? c'.key = none ∧ c'.sections = steps i [e]) := by
    intro i c' hi
    have hsc := c2 i
    rw [sec_some hi.1] at hsc
    rcases c3 i c' hi.1 with ⟨c, hc, hk, hl⟩ | ⟨hi1, hl⟩
    · rw [sec_some hc] at hsc
      exact .inl ⟨c, ⟨hc, by rw [← hl]; exact hi.2.1, by have := hi.2.2; omega⟩, hk.symm, hsc⟩
    · right
      refine ⟨hi1, hl hi.2.1, ?_⟩
      rw [sec, hi1, List.getElem?_eq_none (le_refl _)] at hsc
      rw [hsc, hi1]; simp
  have horder : ∀ i c j d, Act f' i c → f'.calls[j]? = some d → i < j → d.key = c.key → d.live = false := by
    intro i c j d hi hj hij hk
    rcases hact i c hi with ⟨c0, h0, hk0, _⟩ | ⟨hi1, _, _⟩
    · rcases c3 j d hj with ⟨d0, hd0, hdk, hdl⟩ | ⟨hj1, hl⟩
      · rw [hdl]; exact a.order i c0 j d0 h0 hd0 hij (by rw [← hdk, hk, hk0])
      · by_contra hlv
        rw [Bool.not_eq_false] at hlv
        have h1 := hl hlv
        have h2 := (a.inv.act i c0 h0).1
        rw [hk0, ← hk, h1] at h2; cases h2
    · rcases c3 j d hj with ⟨d0, hd0, _, _⟩ | ⟨hj1, _⟩
      · have : j < f.calls.length := by
          by_contra hcn
          rw [List.getElem?_eq_none (by omega)] at hd0; cases hd0
        omega
      · omega
  -- events that leave buffers and output alone
  have quiet : f'.buffer = f.buffer → f'.out = f.out → (∀ i, steps i [e] = 0) → f'.now = clock t0 (h ++ [e]) →
      f'.dropAll = (!latched b (h ++ [e])) → Agree b t0 (h ++ [e]) f' := by
    intro q1 q2 q3 q4 q5
    refine ⟨hinv, q4, q5, hcalls, hsecs, horder, ?_, ?_⟩
    · intro i c' hi h2
      rw [hrec, q1]
      rcases hact i c' hi with ⟨c, h0, hk, hsx⟩ | ⟨_, _, hsx⟩
      · rw [← hk]; exact a.buf i c h0 (by rw [q3] at hsx; omega)
      · rw [q3] at hsx; omega
    · intro k; rw [q2, a.out, passedAll_idle b k h e he q3 hnew]
  cases e with
  | msg m => exact absurd rfl (he m)
  | tick t =>
    obtain ⟨_, rfl⟩ := step_tick_cases hs
    refine quiet rfl rfl (fun _ => rfl) ?_ ?_
    · rw [clock_append]
    · rw [latched_append]; exact a.drop
  | latch =>
    obtain ⟨_, _, rfl⟩ := step_latch_cases hs
    refine quiet rfl rfl (fun _ => rfl) ?_ ?_
    · rw [clock_append]; exact a.now
    · rw [latched_append]; rfl
  | read i =>
    obtain ⟨c, hc, _, rfl⟩ := step_read_cases hs
    refine quiet rfl rfl (fun _ => rfl) ?_ ?_
    · rw [clock_append]; exact a.now
    · rw [latched_append]; exact a.drop
  | allow k al =>
    have hs' := hs
    rw [step] at hs'
    obtain ⟨_, ⟨_, _, rfl⟩ | ⟨_, rfl⟩⟩ := setAllowance_cases hs'
    all_goals
      refine quiet rfl rfl (fun _ => rfl) ?_ ?_
      · rw [clock_append]; exact a.now
      · rw [latched_append]; exact a.drop
  | step j =>
    have hs' := hs
    rw [step] at hs'
    have hal : allows (h ++ [(Ev.step j : Ev D)]) = allows h := by rw [allows_append]; simp [allows]
    have hcl : clock t0 (h ++ [(Ev.step j : Ev D)]) = clock t0 h := by rw [clock_append]
    have hla : latched b (h ++ [(Ev.step j : Ev D)]) = latched b h := by rw [latched_append]
    have h1 : steps j [(Ev.step j : Ev D)] = 1 := by simp [steps]
    have h0 : ∀ i, i ≠ j → steps i [(Ev.step j : Ev D)] = 0 := fun i hi => by rw [steps, if_neg (fun e => hi e.symm)]; rfl
    have hpo : ∀ k i, i ≠ j → contrib b k (h ++ [.step j]) i = contrib b k h i := by
      intro k i hi
      rw [contrib, contrib, hal, passed, passed, hrec, hrec, steps_append, h0 i hi, Nat.add_zero]
    -- sections that flush nothing
    have still : ∀ c, f.calls[j]? = some c → c.live = true → c.sections < 4 → c.sections ≠ 2 →
        f'.buffer = f.buffer → f'.out = f.out → f'.now = f.now → f'.dropAll = f.dropAll → Agree b t0 (h ++ [.step j]) f' := by
      intro c hc hlv hc4 hne q1 q2 q3 q4
      refine ⟨hinv, by rw [hcl, q3, a.now], by rw [hla, q4, a.drop], hcalls, hsecs, horder, ?_, ?_⟩
      · intro i c' hi h2
        rw [hrec, q1]
        rcases hact i c' hi with ⟨c0, hc0, hk, hsx⟩ | ⟨hi1, _, _⟩
        · by_cases hij : i = j
          · subst hij
            have := Option.some.inj (hc0.1.symm.trans hc)
            subst this
            rw [h1] at hsx
            -- it starts buffering: nothing is buffered yet
            have hnone : f.buffer.get? c'.key = none := by
              cases hb : f.buffer.get? c'.key with
              | none => rfl
              | some bb =>
                obtain ⟨⟨i', d, hd, hdk, hd2⟩, _⟩ := a.inv.buffered _ _ hb
                have := a.inv.uniq i' d i c0 hd hc0 (hdk.trans hk.symm)
                subst this
                have := Option.some.inj (hd.1.symm.trans hc0.1)
                subst this; omega
            rw [hnone, receivedIn_nil]
            · rfl
            · rw [← a.secs, sec_some hc]; omega
          · rw [← hk]; exact a.buf i c0 hc0 (by rw [h0 i hij] at hsx; omega)
        · have : j < f.calls.length := by
            by_contra hcn
            rw [List.getElem?_eq_none (by omega)] at hc; cases hc
          have hsx := c2 i
          rw [sec_some hi.1, h0 i (by omega), sec, List.getElem?_eq_none (by omega)] at hsx
          simp at hsx; omega
      · intro k
        rw [q2, a.out, passedAll_eq, passedAll_eq, hal]
        refine (flat_same (fun i _ => ?_)).symm
        by_cases hij : i = j
        · subst hij
          rw [contrib, contrib, hal, passed, passed, hrec, hrec, steps_append, h1]
          have hsx : steps i h = c.sections := by rw [← a.secs, sec_some hc]
          have e1 : (3 ≤ steps i h + 1) ↔ 3 ≤ steps i h := by omega
          simp only [e1]
        · exact hpo k i hij
    obtain ⟨c, hc, hl, ⟨h2, rfl⟩ | ⟨h2, _, _, rfl⟩ | ⟨h2, _, _, rfl⟩ | ⟨h2, _, _, rfl⟩⟩ := stateStep_cases hs'
    · exact still c hc hl (by omega) (by omega) rfl rfl rfl rfl
    · exact still c hc hl (by omega) (by omega) rfl rfl rfl rfl
    · -- flush
      have ha : Act f j c := ⟨hc, hl, by omega⟩
      have hsx : steps j h = 2 := by rw [← a.secs, sec_some hc, h2]
      have hb := a.buf j c ha h2
      refine ⟨hinv, by rw [hcl]; exact a.now, by rw [hla]; exact a.drop, hcalls, hsecs, horder, ?_, ?_⟩
      · intro i c' hi h2'
        rw [hrec]
        simp only
        rw [GoMap.get?_delete]
        rcases hact i c' hi with ⟨c0, hc0, hk, hsc⟩ | ⟨hi1, _, hsc⟩
        · by_cases hij : i = j
          · subst hij
            have := Option.some.inj (hc0.1.symm.trans hc)
            subst this
            rw [h1] at hsc; omega
          · have : ¬ c.key = c'.key := fun e => hij (a.inv.uniq i c0 j c hc0 ha (hk.trans e.symm))
            rw [if_neg this, ← hk]; exact a.buf i c0 hc0 (by rw [h0 i hij] at hsc; omega)
        · have : j < f.calls.length := by
            by_contra hcn
            rw [List.getElem?_eq_none (by omega)] at hc; cases hc
          rw [h0 i (by omega)] at hsc; omega
      · intro k
        simp only [List.filter_append]
        rw [a.out, passedAll_eq, passedAll_eq, hal]
        have hmem : ∀ m ∈ (f.buffer.get? c.key).getD [], m.key = c.key := by
          intro m hm
          cases hg : f.buffer.get? c.key with
          | none => rw [hg] at hm; simp at hm
          | some bb => rw [hg, Option.getD_some] at hm; exact ((a.inv.buffered _ _ hg).2.2 m hm).1
        by_cases hk : c.key = k
        · subst hk
          have hj : j < (allows h).length := by
            rw [a.length]
            by_contra hcn
            rw [List.getElem?_eq_none (by omega)] at hc; cases hc
          have hkey : ((allows h)[j]?).map Prod.fst = some c.key := by rw [a.keyAt hc]; rfl
          rw [flat_update (i0 := j) (X := (f.buffer.get? c.key).getD []) (G := contrib b c.key h) (G' := contrib b c.key (h ++ [(Ev.step j : Ev D)])) hj
            (fun i _ hne => hpo _ i hne) ?_ (fun i _ hlt => a.later ha hlt)]
          · congr 1
            rw [List.filter_eq_self]
            intro m hm; simp [hmem m hm]
          · rw [contrib, contrib, hal, if_pos hkey, if_pos hkey, passed_zero _ _ _ _ (by omega : steps j h < 3), passed, hrec, hrec,
              steps_append, h1, hsx, if_pos (le_refl _), receivedIn_nil _ _ _ 3 _ (by omega), hb]
            simp
        · rw [flat_same (G := contrib b k h) (G' := contrib b k (h ++ [(Ev.step j : Ev D)])) (fun i _ => ?_)]
          · have : ((f.buffer.get? c.key).getD []).filter (fun m => decide (m.key = k)) = [] := by
              rw [List.filter_eq_nil_iff]
              intro m hm; simp [hmem m hm, hk]
            rw [this, List.append_nil]
          · by_cases hij : i = j
            · subst hij
              rw [contrib, contrib, hal, a.keyAt hc]
              simp [hk]
            · exact hpo k i hij
    · exact still c hc hl (by omega) (by omega) rfl rfl rfl rfl

theorem run_append (f : Fw D) (h g : List (Ev D)) : run f (h ++ g) = run f h >>= fun f' => run f' g := by
  induction h generalizing f with
  | nil => rfl
  | cons e h ih =>
    rw [List.cons_append, run, run]
    cases hs : step f e with
    | ok f' => rw [Outcome.bind_ok, Outcome.bind_ok, ih]
    | err => rfl
    | panic => rfl

theorem agree_make (np : Nat) (gs : Int → Bool) (du t0 : Int) :
    Agree (!decide (t0 < du)) t0 [] (make D np gs du t0) := by
  refine ⟨inv_make _ _ _ _, rfl, ?_, rfl, fun i => rfl, ?_, ?_, fun k => rfl⟩
  · simp [make, latched]
  · intro i c j d hi; simp [Act, make] at hi
  · intro i c hi; simp [Act, make] at hi

theorem agree_run {np : Nat} {gs : Int → Bool} {du t0 : Int} {h : List (Ev D)} {f : Fw D}
    (hr : run (make D np gs du t0) h = .ok f) : Agree (!decide (t0 < du)) t0 h f := by
  induction h using List.reverseRecOn generalizing f with
  | nil => rw [run] at hr; rw [← Outcome.ok.inj hr]; exact agree_make np gs du t0
  | append_singleton h e ih =>
    rw [run_append, Outcome.bind_eq_ok] at hr
    obtain ⟨g, h1, h2⟩ := hr
    rw [run, Outcome.bind_eq_ok] at h2
    obtain ⟨g', h3, h4⟩ := h2
    rw [run] at h4
    rw [← Outcome.ok.inj h4]
    exact agree_step (ih h1) h3

/-- Parts of the firewall that never change. -/
theorem step_const {f f' : Fw D} {e : Ev D} (hs : step f e = .ok f') :
    f'.nprots = f.nprots ∧ f'.guests = f.guests ∧ f'.dropUntil = f.dropUntil := by
  cases e with
  | tick t => obtain ⟨_, rfl⟩ := step_tick_cases hs; exact ⟨rfl, rfl, rfl⟩
  | latch => obtain ⟨_, _, rfl⟩ := step_latch_cases hs; exact ⟨rfl, rfl, rfl⟩
  | msg m =>
    rw [step] at hs
    rw [← Outcome.ok.inj hs]
    rcases process_cases f m with e | ⟨_, _, _, _, e⟩ | ⟨_, _, _, e⟩ <;> rw [e] <;> exact ⟨rfl, rfl, rfl⟩
  | read i => obtain ⟨c, hc, _, rfl⟩ := step_read_cases hs; exact ⟨rfl, rfl, rfl⟩
  | step i =>
    rw [step] at hs
    obtain ⟨c, hc, hl, ⟨h2, rfl⟩ | ⟨h2, _, _, rfl⟩ | ⟨h2, _, _, rfl⟩ | ⟨h2, _, _, rfl⟩⟩ := stateStep_cases hs
    all_goals exact ⟨rfl, rfl, rfl⟩
  | allow k a =>
    rw [step] at hs
    obtain ⟨_, ⟨b, hb, rfl⟩ | ⟨hb, rfl⟩⟩ := setAllowance_cases hs
    all_goals exact ⟨rfl, rfl, rfl⟩

theorem run_const {f f' : Fw D} {h : List (Ev D)} (hr : run f h = .ok f') :
    f'.nprots = f.nprots ∧ f'.guests = f.guests ∧ f'.dropUntil = f.dropUntil := by
  induction h generalizing f with
  | nil => rw [run] at hr; rw [← Outcome.ok.inj hr]; exact ⟨rfl, rfl, rfl⟩
  | cons e h ih =>
    rw [run, Outcome.bind_eq_ok] at hr
    obtain ⟨g, h1, h2⟩ := hr
    obtain ⟨a, b, c⟩ := step_const h1
    obtain ⟨a', b', c'⟩ := ih h2
    exact ⟨a'.trans a, b'.trans b, c'.trans c⟩

end Verif.Firewall
