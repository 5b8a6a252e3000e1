import Verif.Model.Firewall
import Mathlib.Order.Basic
import Mathlib.Order.Defs.LinearOrder
import Mathlib.Algebra.Order.Ring.Int

/-! The firewall's invariant. -/
namespace Verif.Firewall
variable {D : Type}

/-- Call `i` started a thread, and that thread has not finished. -/
def Act (f : Fw D) (i : Nat) (c : Call) : Prop := f.calls[i]? = some c ∧ c.live = true ∧ c.sections < 4

structure Inv (f : Fw D) : Prop where
  latch : f.dropAll = false → f.dropUntil ≤ f.now
  act : ∀ i c, Act f i c → f.allowances.get? c.key = some c.allow ∧ f.state.get? c.key = some (c.sections - 1)
  loaded : ∀ (i : Nat) (c : Call), f.calls[i]? = some c → (1 ≤ c.sections → c.loaded = c.allow) ∧ (2 ≤ c.sections → c.allow.buf ≤ f.now) ∧
    (3 ≤ c.sections → c.allow.start ≤ f.now) ∧ (4 ≤ c.sections → c.allow.stop ≤ f.now)
  uniq : ∀ i c j d, Act f i c → Act f j d → c.key = d.key → i = j
  allowed : ∀ k a, f.allowances.get? k = some a → ∃ i c, Act f i c ∧ c.key = k
  stated : ∀ k v, f.state.get? k = some v → ∃ i c, Act f i c ∧ c.key = k
  buffered : ∀ k b, f.buffer.get? k = some b → (∃ i c, Act f i c ∧ c.key = k ∧ c.sections = 2) ∧ b.length ≤ bufMax ∧
    ∀ m ∈ b, m.key = k ∧ messageValid f m = true
  obs : ∀ (i : Nat) (c : Call), f.calls[i]? = some c → c.obs.length ≤ c.sections - 1 ∧ c.sections ≤ 4 ∧ (c.live = false → c.sections = 0)
  keys : ∀ (i : Nat) (c : Call), f.calls[i]? = some c → keyValid f c.key = true
  outs : ∀ m ∈ f.out, messageValid f m = true

theorem inv_make (nprots : Nat) (guests : Int → Bool) (du now : Int) : Inv (make D nprots guests du now) := by
  refine ⟨?_, ?_, ?_, ?_, ?_, ?_, ?_, ?_, ?_, ?_⟩
  · intro h
    simp only [make, decide_eq_false_iff_not] at h ⊢
    omega
  all_goals simp [make, Act]

theorem messageValid_eq (f : Fw D) (m : Message D) : messageValid f m = keyValid f m.key := by
  rw [messageValid, keyValid]
  by_cases h1 : 0 ≤ m.pc <;> by_cases h2 : m.pc < f.nprots <;> simp [Message.key, h1, h2]

/-- Changing nothing that the configuration part depends on. -/
theorem keyValid_congr {f g : Fw D} (h1 : f.nprots = g.nprots) (h2 : f.guests = g.guests) (k : RunKey) :
    keyValid f k = keyValid g k := by rw [keyValid, keyValid, h1, h2]

theorem process_cases (f : Fw D) (m : Message D) :
    (process f m = f) ∨
    (f.dropAll = false ∧ messageValid f m = true ∧ f.state.get? m.key = some buffering ∧
      ((f.buffer.get? m.key).getD []).length < bufMax ∧
      process f m = { f with buffer := f.buffer.set m.key ((f.buffer.get? m.key).getD [] ++ [m]) }) ∨
    (f.dropAll = false ∧ messageValid f m = true ∧ f.state.get? m.key = some forwarding ∧
      process f m = { f with out := f.out ++ [m] }) := by
  rw [process]
  by_cases h1 : (f.dropAll || !messageValid f m) = true
  · rw [if_pos h1]; exact .inl rfl
  rw [if_neg h1]
  simp only [Bool.or_eq_true, Bool.not_eq_true', not_or, Bool.not_eq_true, Bool.not_eq_false] at h1
  cases h2 : f.state.get? m.key with
  | none => exact .inl rfl
  | some st =>
    simp only
    by_cases h3 : st = buffering
    · rw [if_pos h3]
      by_cases h4 : ((f.buffer.get? m.key).getD []).length < bufMax
      · rw [if_pos h4]; subst h3; exact .inr (.inl ⟨h1.1, h1.2, rfl, h4, rfl⟩)
      · rw [if_neg h4]; exact .inl rfl
    · rw [if_neg h3]
      by_cases h4 : st = forwarding
      · rw [if_pos h4]; subst h4; exact .inr (.inr ⟨h1.1, h1.2, rfl, rfl⟩)
      · rw [if_neg h4]; exact .inl rfl

theorem stateStep_cases {f f' : Fw D} {i : Nat} (h : stateStep f i = .ok f') :
    ∃ c, f.calls[i]? = some c ∧ c.live = true ∧
      ((c.sections = 0 ∧ f' = { f with calls := f.calls.set i { c with sections := 1, loaded := (f.allowances.get? c.key).getD ⟨0, 0, 0⟩ } }) ∨
       (c.sections = 1 ∧ c.loaded.buf ≤ f.now ∧ c.obs.length < obsCap ∧ f' = { f with
          state := f.state.set c.key buffering
          calls := f.calls.set i { c with sections := 2, obs := c.obs ++ [buffering] } }) ∨
       (c.sections = 2 ∧ c.loaded.start ≤ f.now ∧ c.obs.length < obsCap ∧ f' = { f with
          out := f.out ++ (f.buffer.get? c.key).getD []
          buffer := f.buffer.delete c.key
          state := f.state.set c.key forwarding
          calls := f.calls.set i { c with sections := 3, obs := c.obs ++ [forwarding] } }) ∨
       (c.sections = 3 ∧ c.loaded.stop ≤ f.now ∧ c.obs.length < obsCap ∧ f' = { f with
          state := (f.state.set c.key stopped).delete c.key
          allowances := f.allowances.delete c.key
          calls := f.calls.set i { c with sections := 4, obs := c.obs ++ [stopped] } })) := by
  rw [stateStep] at h
  cases hc : f.calls[i]? with
  | none => rw [hc] at h; cases h
  | some c =>
    rw [hc] at h
    simp only at h
    refine ⟨c, rfl, ?_⟩
    by_cases hl : c.live = true
    · refine ⟨hl, ?_⟩
      rw [if_neg (by simp [hl])] at h
      by_cases h0 : c.sections = 0
      · rw [if_pos h0] at h; exact .inl ⟨h0, (Outcome.ok.inj h).symm⟩
      rw [if_neg h0] at h
      by_cases h1 : c.sections = 1
      · rw [if_pos h1] at h
        by_cases hg : c.loaded.buf ≤ f.now ∧ c.obs.length < obsCap
        · rw [if_pos hg] at h; exact .inr (.inl ⟨h1, hg.1, hg.2, (Outcome.ok.inj h).symm⟩)
        · rw [if_neg hg] at h; cases h
      rw [if_neg h1] at h
      by_cases h2 : c.sections = 2
      · rw [if_pos h2] at h
        by_cases hg : c.loaded.start ≤ f.now ∧ c.obs.length < obsCap
        · rw [if_pos hg] at h; exact .inr (.inr (.inl ⟨h2, hg.1, hg.2, (Outcome.ok.inj h).symm⟩))
        · rw [if_neg hg] at h; cases h
      rw [if_neg h2] at h
      by_cases h3 : c.sections = 3
      · rw [if_pos h3] at h
        by_cases hg : c.loaded.stop ≤ f.now ∧ c.obs.length < obsCap
        · rw [if_pos hg] at h; exact .inr (.inr (.inr ⟨h3, hg.1, hg.2, (Outcome.ok.inj h).symm⟩))
        · rw [if_neg hg] at h; cases h
      · rw [if_neg h3] at h; cases h
    · rw [Bool.not_eq_true] at hl
      rw [hl] at h; simp only [Bool.not_false, if_true] at h; cases h

theorem setAllowance_cases {f f' : Fw D} {k : RunKey} {a : Allowance} (h : setAllowance f k a = .ok f') :
    keyValid f k = true ∧
    ((∃ b, f.allowances.get? k = some b ∧ f' = { f with calls := f.calls ++ [⟨k, a, false, 0, ⟨0, 0, 0⟩, []⟩] }) ∨
     (f.allowances.get? k = none ∧ f' = { f with
        allowances := f.allowances.set k a
        state := f.state.set k dropping
        calls := f.calls ++ [⟨k, a, true, 0, ⟨0, 0, 0⟩, []⟩] })) := by
  rw [setAllowance] at h
  by_cases hv : keyValid f k = true
  · refine ⟨hv, ?_⟩
    rw [hv] at h
    simp only [Bool.not_true, Bool.false_eq_true, if_false] at h
    cases hb : f.allowances.get? k with
    | some b =>
      rw [hb] at h; simp only [Option.isSome_some, if_true] at h
      exact .inl ⟨b, rfl, (Outcome.ok.inj h).symm⟩
    | none =>
      rw [hb] at h; simp only [Option.isSome_none, Bool.false_eq_true, if_false] at h
      exact .inr ⟨rfl, (Outcome.ok.inj h).symm⟩
  · rw [Bool.not_eq_true] at hv; rw [hv] at h; simp only [Bool.not_false, if_true] at h; cases h

/-- Lookup in a list with one entry replaced. -/
theorem getElem?_set_some {α : Type} {l : List α} {i j : Nat} {x y z : α} (hi : l[i]? = some x)
    (h : (l.set i y)[j]? = some z) : (j = i ∧ z = y) ∨ (j ≠ i ∧ l[j]? = some z) := by
  rw [List.getElem?_set] at h
  by_cases e : i = j
  · rw [if_pos e] at h
    have : i < l.length := by
      by_contra hc
      rw [List.getElem?_eq_none (by omega)] at hi; cases hi
    rw [if_pos this] at h
    exact .inl ⟨e.symm, (Option.some.inj h).symm⟩
  · rw [if_neg e] at h; exact .inr ⟨fun x => e x.symm, h⟩

theorem getElem?_set_self {α : Type} {l : List α} {i : Nat} {x : α} (y : α) (hi : l[i]? = some x) :
    (l.set i y)[i]? = some y := by
  have : i < l.length := by
    by_contra hc
    rw [List.getElem?_eq_none (by omega)] at hi; cases hi
  rw [List.getElem?_set, if_pos rfl, if_pos this]

theorem getElem?_set_other {α : Type} {l : List α} {i j : Nat} (y : α) (h : j ≠ i) : (l.set i y)[j]? = l[j]? := by
  rw [List.getElem?_set, if_neg (fun e => h e.symm)]

theorem getElem?_concat_some {α : Type} {l : List α} {j : Nat} {y z : α} (h : (l ++ [y])[j]? = some z) :
    (j = l.length ∧ z = y) ∨ (j < l.length ∧ l[j]? = some z) := by
  rw [List.getElem?_append] at h
  by_cases e : j < l.length
  · rw [if_pos e] at h; exact .inr ⟨e, h⟩
  · rw [if_neg e] at h
    left
    have : j - l.length = 0 := by
      by_contra hc
      rw [List.getElem?_eq_none (by simp; omega)] at h; cases h
    rw [this] at h
    exact ⟨by omega, (Option.some.inj h).symm⟩

theorem getElem?_concat_old {α : Type} {l : List α} {j : Nat} {z : α} (y : α) (h : l[j]? = some z) :
    (l ++ [y])[j]? = some z := by
  have : j < l.length := by
    by_contra hc
    rw [List.getElem?_eq_none (by omega)] at h; cases h
  rw [List.getElem?_append, if_pos this, h]

theorem getElem?_concat_new {α : Type} (l : List α) (y : α) : (l ++ [y])[l.length]? = some y := by simp

theorem inv_process {f : Fw D} (h : Inv f) (m : Message D) : Inv (process f m) := by
  rcases process_cases f m with e | ⟨_, hv, hs, hl, e⟩ | ⟨_, hv, hs, e⟩
  · rw [e]; exact h
  · rw [e]
    refine ⟨h.latch, h.act, h.loaded, h.uniq, h.allowed, h.stated, ?_, h.obs, h.keys, h.outs⟩
    intro k b hb
    simp only at hb
    rw [GoMap.get?_set] at hb
    by_cases hk : m.key = k
    · rw [if_pos hk] at hb
      have hb := Option.some.inj hb
      obtain ⟨i, c, ha, hck⟩ := h.stated _ _ hs
      have hsec : c.sections = 2 := by
        have := (h.act i c ha).2
        rw [hck, hs] at this
        have := Option.some.inj this
        rw [buffering] at this; omega
      refine ⟨⟨i, c, ha, hck.trans hk, hsec⟩, ?_, ?_⟩
      · rw [← hb, List.length_append]; simp only [List.length_singleton]; omega
      · intro m' hm'
        rw [← hb, List.mem_append, List.mem_singleton] at hm'
        rcases hm' with hm' | rfl
        · cases hg : f.buffer.get? m.key with
          | none => rw [hg] at hm'; simp at hm'
          | some b0 =>
            rw [hg, Option.getD_some] at hm'
            have := (h.buffered _ _ hg).2.2 m' hm'
            exact ⟨this.1.trans hk, this.2⟩
        · exact ⟨hk, hv⟩
    · rw [if_neg hk] at hb; exact h.buffered k b hb
  · rw [e]
    refine ⟨h.latch, h.act, h.loaded, h.uniq, h.allowed, h.stated, h.buffered, h.obs, h.keys, ?_⟩
    intro m' hm'
    simp only [List.mem_append, List.mem_singleton] at hm'
    rcases hm' with hm' | rfl
    · exact h.outs m' hm'
    · exact hv

theorem inv_setAllowance {f f' : Fw D} (h : Inv f) {k : RunKey} {a : Allowance} (hs : setAllowance f k a = .ok f') :
    Inv f' := by
  obtain ⟨hv, ⟨b, hb, rfl⟩ | ⟨hb, rfl⟩⟩ := setAllowance_cases hs
  · have old : ∀ i c, Act f i c → Act { f with calls := f.calls ++ [(⟨k, a, false, 0, ⟨0, 0, 0⟩, []⟩ : Call)] } i c :=
      fun i c ha => ⟨getElem?_concat_old _ ha.1, ha.2⟩
    have back : ∀ i c, Act { f with calls := f.calls ++ [(⟨k, a, false, 0, ⟨0, 0, 0⟩, []⟩ : Call)] } i c → Act f i c := by
      intro i c ha
      rcases getElem?_concat_some ha.1 with ⟨_, rfl⟩ | ⟨_, h2⟩
      · exact absurd ha.2.1 (by simp)
      · exact ⟨h2, ha.2⟩
    refine ⟨h.latch, fun i c ha => h.act i c (back i c ha), ?_, fun i c j d x y => h.uniq i c j d (back _ _ x) (back _ _ y),
      ?_, ?_, ?_, ?_, ?_, h.outs⟩
    · intro i c hc
      rcases getElem?_concat_some hc with ⟨_, rfl⟩ | ⟨_, h2⟩
      · simp
      · exact h.loaded i c h2
    · intro k' a' hk
      obtain ⟨i, c, x, y⟩ := h.allowed k' a' hk
      exact ⟨i, c, old _ _ x, y⟩
    · intro k' a' hk
      obtain ⟨i, c, x, y⟩ := h.stated k' a' hk
      exact ⟨i, c, old _ _ x, y⟩
    · intro k' b' hk
      obtain ⟨⟨i, c, x, y⟩, z⟩ := h.buffered k' b' hk
      exact ⟨⟨i, c, old _ _ x, y⟩, z⟩
    · intro i c hc
      rcases getElem?_concat_some hc with ⟨_, rfl⟩ | ⟨_, h2⟩
      · simp
      · exact h.obs i c h2
    · intro i c hc
      rcases getElem?_concat_some hc with ⟨_, rfl⟩ | ⟨_, h2⟩
      · exact hv
      · exact h.keys i c h2
  · have hno : ∀ i c, Act f i c → c.key ≠ k := by
      intro i c ha e
      have := (h.act i c ha).1
      rw [e, hb] at this; cases this
    generalize hg : ({ f with
        allowances := f.allowances.set k a
        state := f.state.set k dropping
        calls := f.calls ++ [⟨k, a, true, 0, ⟨0, 0, 0⟩, []⟩] } : Fw D) = g
    have gc : g.calls = f.calls ++ [⟨k, a, true, 0, ⟨0, 0, 0⟩, []⟩] := by rw [← hg]
    have ga : g.allowances = f.allowances.set k a := by rw [← hg]
    have gs : g.state = f.state.set k dropping := by rw [← hg]
    have gb : g.buffer = f.buffer := by rw [← hg]
    have gk : ∀ k, keyValid g k = keyValid f k := fun k => keyValid_congr (by rw [← hg]) (by rw [← hg]) k
    have new : Act g f.calls.length ⟨k, a, true, 0, ⟨0, 0, 0⟩, []⟩ :=
      ⟨by rw [gc]; exact getElem?_concat_new _ _, rfl, by simp⟩
    have old : ∀ i c, Act f i c → Act g i c := fun i c ha => ⟨by rw [gc]; exact getElem?_concat_old _ ha.1, ha.2⟩
    have back : ∀ i c, Act g i c → (i = f.calls.length ∧ c = ⟨k, a, true, 0, ⟨0, 0, 0⟩, []⟩) ∨ Act f i c := by
      intro i c ha
      have := ha.1
      rw [gc] at this
      rcases getElem?_concat_some this with h1 | ⟨_, h2⟩
      · exact .inl h1
      · exact .inr ⟨h2, ha.2⟩
    have gn : g.now = f.now := by rw [← hg]
    refine ⟨by rw [← hg]; exact h.latch, ?_, ?_, ?_, ?_, ?_, ?_, ?_, ?_, ?_⟩
    · intro i c ha
      rw [ga, gs, GoMap.get?_set, GoMap.get?_set]
      rcases back i c ha with ⟨_, rfl⟩ | ha
      · simp [dropping]
      · rw [if_neg (fun e => hno i c ha e.symm), if_neg (fun e => hno i c ha e.symm)]
        exact h.act i c ha
    · intro i c hc
      rw [gc] at hc
      rcases getElem?_concat_some hc with ⟨_, rfl⟩ | ⟨_, h2⟩
      · simp
      · rw [gn]; exact h.loaded i c h2
    · intro i c j d x y e
      rcases back i c x with ⟨hi, rfl⟩ | hx
      · rcases back j d y with ⟨hj, _⟩ | hy
        · rw [hi, hj]
        · exact absurd e.symm (hno j d hy)
      · rcases back j d y with ⟨hj, rfl⟩ | hy
        · exact absurd e (hno i c hx)
        · exact h.uniq i c j d hx hy e
    · intro k' a' hk
      rw [ga, GoMap.get?_set] at hk
      by_cases e : k = k'
      · exact ⟨_, _, new, e⟩
      · rw [if_neg e] at hk
        obtain ⟨i, c, x, y⟩ := h.allowed k' a' hk
        exact ⟨i, c, old _ _ x, y⟩
    · intro k' v hk
      rw [gs, GoMap.get?_set] at hk
      by_cases e : k = k'
      · exact ⟨_, _, new, e⟩
      · rw [if_neg e] at hk
        obtain ⟨i, c, x, y⟩ := h.stated k' v hk
        exact ⟨i, c, old _ _ x, y⟩
    · intro k' b' hk
      rw [gb] at hk
      obtain ⟨⟨i, c, x, y⟩, z1, z2⟩ := h.buffered k' b' hk
      refine ⟨⟨i, c, old _ _ x, y⟩, z1, ?_⟩
      intro m hm
      rw [messageValid_eq, gk, ← messageValid_eq]
      exact z2 m hm
    · intro i c hc
      rw [gc] at hc
      rcases getElem?_concat_some hc with ⟨_, rfl⟩ | ⟨_, h2⟩
      · simp
      · exact h.obs i c h2
    · intro i c hc
      rw [gk]
      rw [gc] at hc
      rcases getElem?_concat_some hc with ⟨_, rfl⟩ | ⟨_, h2⟩
      · exact hv
      · exact h.keys i c h2
    · intro m hm
      rw [messageValid_eq, gk, ← messageValid_eq]
      exact h.outs m (by rw [← hg] at hm; exact hm)

/-- A thread moves to its next section without ending. -/
theorem inv_advance {f g : Fw D} (h : Inv f) {i : Nat} {c c' : Call} (ha : Act f i c)
    (hc : g.calls = f.calls.set i c') (hk : c'.key = c.key) (hal : c'.allow = c.allow) (hl : c'.live = true)
    (hsec : c'.sections = c.sections + 1) (hsec4 : c'.sections < 4)
    (hload : c'.loaded = c.allow) (hbuf : 2 ≤ c'.sections → c.allow.buf ≤ f.now)
    (hstart : 3 ≤ c'.sections → c.allow.start ≤ f.now)
    (hobs : c'.obs.length ≤ c'.sections - 1)
    (hall : g.allowances = f.allowances)
    (hst : g.state.get? c.key = some (c'.sections - 1)) (hst' : ∀ k, k ≠ c.key → g.state.get? k = f.state.get? k)
    (hb : ∀ k b, g.buffer.get? k = some b → f.buffer.get? k = some b)
    (hb2 : c.sections = 2 → g.buffer.get? c.key = none)
    (hout : ∀ m ∈ g.out, m ∈ f.out ∨ ∃ b, f.buffer.get? c.key = some b ∧ m ∈ b)
    (hn : g.now = f.now) (hda : g.dropAll = f.dropAll) (hdu : g.dropUntil = f.dropUntil)
    (hnp : g.nprots = f.nprots) (hgu : g.guests = f.guests) : Inv g := by
  have gk : ∀ k, keyValid g k = keyValid f k := keyValid_congr hnp hgu
  have new : Act g i c' := ⟨by rw [hc]; exact getElem?_set_self _ ha.1, hl, hsec4⟩
  have old : ∀ j d, j ≠ i → Act f j d → Act g j d := fun j d hj had => ⟨by rw [hc, getElem?_set_other _ hj]; exact had.1, had.2⟩
  have back : ∀ (j : Nat) (d : Call), g.calls[j]? = some d → (j = i ∧ d = c') ∨ (j ≠ i ∧ f.calls[j]? = some d) := by
    intro j d hd; rw [hc] at hd; exact getElem?_set_some ha.1 hd
  have lift : ∀ k, (∃ j d, Act f j d ∧ d.key = k) → ∃ j d, Act g j d ∧ d.key = k := by
    rintro k ⟨j, d, hd, e⟩
    by_cases hj : j = i
    · subst hj
      have : d = c := Option.some.inj (hd.1.symm.trans ha.1)
      subst this
      exact ⟨j, c', new, hk.trans e⟩
    · exact ⟨j, d, old j d hj hd, e⟩
  refine ⟨by rw [hda, hdu, hn]; exact h.latch, ?_, ?_, ?_, ?_, ?_, ?_, ?_, ?_, ?_⟩
  · intro j d hd
    rcases back j d hd.1 with ⟨_, rfl⟩ | ⟨hj, hd1⟩
    · rw [hall, hk, hst, hal]; exact ⟨(h.act i c ha).1, rfl⟩
    · have hd' : Act f j d := ⟨hd1, hd.2⟩
      have hne : d.key ≠ c.key := fun e => hj (h.uniq j d i c hd' ha e)
      rw [hall, hst' _ hne]; exact h.act j d hd'
  · intro j d hd
    rw [hn]
    rcases back j d hd with ⟨_, rfl⟩ | ⟨hj, hd1⟩
    · exact ⟨fun _ => by rw [hload, hal], by rw [hal]; exact hbuf, by rw [hal]; exact hstart, fun h4 => by omega⟩
    · exact h.loaded j d hd1
  · intro j d j' d' hd hd' e
    rcases back j d hd.1 with ⟨hj, rfl⟩ | ⟨hj, hd1⟩
    · rcases back j' d' hd'.1 with ⟨hj', rfl⟩ | ⟨hj', hd1'⟩
      · rw [hj, hj']
      · rw [hj]; exact h.uniq i c j' d' ha ⟨hd1', hd'.2⟩ (hk.symm.trans e)
    · rcases back j' d' hd'.1 with ⟨hj', rfl⟩ | ⟨hj', hd1'⟩
      · rw [hj']; exact h.uniq j d i c ⟨hd1, hd.2⟩ ha (e.trans hk)
      · exact h.uniq j d j' d' ⟨hd1, hd.2⟩ ⟨hd1', hd'.2⟩ e
  · intro k a hka
    rw [hall] at hka
    exact lift k (h.allowed k a hka)
  · intro k v hkv
    by_cases e : k = c.key
    · exact ⟨i, c', new, hk.trans e.symm⟩
    · rw [hst' k e] at hkv; exact lift k (h.stated k v hkv)
  · intro k b hkb
    obtain ⟨⟨j, d, hd, e, hs2⟩, z1, z2⟩ := h.buffered k b (hb k b hkb)
    refine ⟨?_, z1, fun m hm => ?_⟩
    · by_cases hj : j = i
      · subst hj
        have : d = c := Option.some.inj (hd.1.symm.trans ha.1)
        subst this
        rw [← e, hb2 hs2] at hkb; cases hkb
      · exact ⟨j, d, old j d hj hd, e, hs2⟩
    · rw [messageValid_eq, gk, ← messageValid_eq]; exact z2 m hm
  · intro j d hd
    rcases back j d hd with ⟨_, rfl⟩ | ⟨hj, hd1⟩
    · exact ⟨hobs, by omega, fun e => by rw [hl] at e; cases e⟩
    · exact h.obs j d hd1
  · intro j d hd
    rw [gk]
    rcases back j d hd with ⟨_, rfl⟩ | ⟨hj, hd1⟩
    · rw [hk]; exact h.keys i c ha.1
    · exact h.keys j d hd1
  · intro m hm
    rw [messageValid_eq, gk, ← messageValid_eq]
    rcases hout m hm with h1 | ⟨b, hb, hm⟩
    · exact h.outs m h1
    · exact ((h.buffered _ _ hb).2.2 m hm).2

theorem inv_stateStep {f f' : Fw D} (h : Inv f) {i : Nat} (hs : stateStep f i = .ok f') : Inv f' := by
  obtain ⟨c, hc, hl, hcase⟩ := stateStep_cases hs
  have hobs := (h.obs i c hc).1
  rcases hcase with ⟨h0, rfl⟩ | ⟨h1, hb, _, rfl⟩ | ⟨h2, hst, _, rfl⟩ | ⟨h3, hsp, _, rfl⟩
  · have ha : Act f i c := ⟨hc, hl, by omega⟩
    refine inv_advance h ha rfl rfl rfl hl (by simp [h0]) (by simp) ?_ (by simp) (by simp) ?_ rfl ?_ (fun _ _ => rfl)
      (fun _ _ x => x) (by omega) (fun m hm => .inl hm) rfl rfl rfl rfl rfl
    · simp only; rw [(h.act i c ha).1]; rfl
    · simp only; rw [h0] at hobs; exact hobs
    · simp only; rw [(h.act i c ha).2, h0]
  · have ha : Act f i c := ⟨hc, hl, by omega⟩
    have hld := (h.loaded i c hc).1 (by omega)
    refine inv_advance h ha rfl rfl rfl hl (by simp [h1]) (by simp) hld (fun _ => by rw [← hld]; exact hb) (by simp) ?_ rfl ?_ ?_
      (fun _ _ x => x) (by omega) (fun m hm => .inl hm) rfl rfl rfl rfl rfl
    · simp only [List.length_append, List.length_singleton]; omega
    · simp [GoMap.get?_set, buffering]
    · intro k hk; simp only [GoMap.get?_set]; rw [if_neg (fun e => hk e.symm)]
  · have ha : Act f i c := ⟨hc, hl, by omega⟩
    have hld := (h.loaded i c hc).1 (by omega)
    have hbf := (h.loaded i c hc).2.1 (by omega)
    refine inv_advance h ha rfl rfl rfl hl (by simp [h2]) (by simp) hld (fun _ => hbf) (fun _ => by rw [← hld]; exact hst) ?_ rfl ?_ ?_
      ?_ ?_ ?_ rfl rfl rfl rfl rfl
    · simp only [List.length_append, List.length_singleton]; omega
    · simp [GoMap.get?_set, forwarding]
    · intro k hk; simp only [GoMap.get?_set]; rw [if_neg (fun e => hk e.symm)]
    · intro k b hkb
      simp only [GoMap.get?_delete] at hkb
      by_cases e : c.key = k
      · rw [if_pos e] at hkb; cases hkb
      · rw [if_neg e] at hkb; exact hkb
    · intro _; simp [GoMap.get?_delete]
    · intro m hm
      simp only [List.mem_append] at hm
      rcases hm with hm | hm
      · exact .inl hm
      · cases hg : f.buffer.get? c.key with
        | none => rw [hg] at hm; simp at hm
        | some b => rw [hg, Option.getD_some] at hm; exact .inr ⟨b, rfl, hm⟩
  · have ha : Act f i c := ⟨hc, hl, by omega⟩
    have hld := (h.loaded i c hc)
    have hld1 := hld.1 (by omega)
    generalize hg : ({ f with
          state := (f.state.set c.key stopped).delete c.key
          allowances := f.allowances.delete c.key
          calls := f.calls.set i { c with sections := 4, obs := c.obs ++ [stopped] } } : Fw D) = g
    have gc : g.calls = f.calls.set i { c with sections := 4, obs := c.obs ++ [stopped] } := by rw [← hg]
    have gs : g.state = (f.state.set c.key stopped).delete c.key := by rw [← hg]
    have ga : g.allowances = f.allowances.delete c.key := by rw [← hg]
    have gn : g.now = f.now := by rw [← hg]
    have gb : g.buffer = f.buffer := by rw [← hg]
    have gk : ∀ k, keyValid g k = keyValid f k := fun k => keyValid_congr (by rw [← hg]) (by rw [← hg]) k
    have back : ∀ (j : Nat) (d : Call), g.calls[j]? = some d → (j = i ∧ d = { c with sections := 4, obs := c.obs ++ [stopped] }) ∨
        (j ≠ i ∧ f.calls[j]? = some d) := by
      intro j d hd; rw [gc] at hd; exact getElem?_set_some hc hd
    have back' : ∀ j d, Act g j d → j ≠ i ∧ Act f j d := by
      intro j d hd
      rcases back j d hd.1 with ⟨_, rfl⟩ | ⟨hj, hd1⟩
      · exact absurd hd.2.2 (by simp)
      · exact ⟨hj, hd1, hd.2⟩
    have ne : ∀ j d, Act g j d → c.key ≠ d.key := by
      intro j d hd e
      obtain ⟨hj, hd'⟩ := back' j d hd
      exact hj (h.uniq j d i c hd' ha e.symm)
    have lift : ∀ k, k ≠ c.key → (∃ j d, Act f j d ∧ d.key = k) → ∃ j d, Act g j d ∧ d.key = k := by
      rintro k hk ⟨j, d, hd, e⟩
      have hj : j ≠ i := by
        rintro rfl
        have : d = c := Option.some.inj (hd.1.symm.trans hc)
        subst this; exact hk e.symm
      exact ⟨j, d, ⟨by rw [gc, getElem?_set_other _ hj]; exact hd.1, hd.2⟩, e⟩
    refine ⟨by rw [← hg]; exact h.latch, ?_, ?_, ?_, ?_, ?_, ?_, ?_, ?_, ?_⟩
    · intro j d hd
      rw [ga, gs, GoMap.get?_delete, GoMap.get?_delete, GoMap.get?_set, if_neg (ne j d hd), if_neg (ne j d hd), if_neg (ne j d hd)]
      exact h.act j d (back' j d hd).2
    · intro j d hd
      rw [gn]
      rcases back j d hd with ⟨_, rfl⟩ | ⟨hj, hd1⟩
      · exact ⟨fun _ => hld1, fun _ => hld.2.1 (by omega), fun _ => hld.2.2.1 (by omega), fun _ => by
          simp only; rw [← hld1]; exact hsp⟩
      · exact h.loaded j d hd1
    · intro j d j' d' hd hd' e
      exact h.uniq j d j' d' (back' _ _ hd).2 (back' _ _ hd').2 e
    · intro k a hka
      rw [ga, GoMap.get?_delete] at hka
      by_cases e : c.key = k
      · rw [if_pos e] at hka; cases hka
      · rw [if_neg e] at hka; exact lift k (fun x => e x.symm) (h.allowed k a hka)
    · intro k v hkv
      rw [gs, GoMap.get?_delete, GoMap.get?_set] at hkv
      by_cases e : c.key = k
      · rw [if_pos e] at hkv; cases hkv
      · rw [if_neg e, if_neg e] at hkv; exact lift k (fun x => e x.symm) (h.stated k v hkv)
    · intro k b hkb
      rw [gb] at hkb
      obtain ⟨⟨j, d, hd, e, hs2⟩, z1, z2⟩ := h.buffered k b hkb
      have hj : j ≠ i := by
        rintro rfl
        have : d = c := Option.some.inj (hd.1.symm.trans hc)
        subst this; omega
      refine ⟨⟨j, d, ⟨by rw [gc, getElem?_set_other _ hj]; exact hd.1, hd.2⟩, e, hs2⟩, z1, fun m hm => ?_⟩
      rw [messageValid_eq, gk, ← messageValid_eq]; exact z2 m hm
    · intro j d hd
      rcases back j d hd with ⟨_, rfl⟩ | ⟨hj, hd1⟩
      · refine ⟨?_, by simp, fun e => by simp only at e; rw [hl] at e; cases e⟩
        simp only [List.length_append, List.length_singleton]; omega
      · exact h.obs j d hd1
    · intro j d hd
      rw [gk]
      rcases back j d hd with ⟨_, rfl⟩ | ⟨hj, hd1⟩
      · exact h.keys i c hc
      · exact h.keys j d hd1
    · intro m hm
      rw [messageValid_eq, gk, ← messageValid_eq]
      exact h.outs m (by rw [← hg] at hm; exact hm)

theorem step_read_cases {f f' : Fw D} {i : Nat} (h : step f (.read i) = .ok f') :
    ∃ c, f.calls[i]? = some c ∧ c.obs ≠ [] ∧ f' = { f with calls := f.calls.set i { c with obs := c.obs.tail } } := by
  rw [step] at h
  cases hc : f.calls[i]? with
  | none => rw [hc] at h; cases h
  | some c =>
    rw [hc] at h; simp only at h
    by_cases ho : c.obs = []
    · rw [if_pos ho] at h; cases h
    · rw [if_neg ho] at h; exact ⟨c, rfl, ho, (Outcome.ok.inj h).symm⟩

theorem step_tick_cases {f f' : Fw D} {t : Int} (h : step f (.tick t) = .ok f') : f.now ≤ t ∧ f' = { f with now := t } := by
  rw [step] at h
  by_cases ht : f.now ≤ t
  · rw [if_pos ht] at h; exact ⟨ht, (Outcome.ok.inj h).symm⟩
  · rw [if_neg ht] at h; cases h

theorem step_latch_cases {f f' : Fw D} (h : step f .latch = .ok f') :
    f.dropAll = true ∧ f.dropUntil ≤ f.now ∧ f' = { f with dropAll := false } := by
  rw [step] at h
  by_cases ht : f.dropAll = true ∧ f.dropUntil ≤ f.now
  · rw [if_pos ht] at h; exact ⟨ht.1, ht.2, (Outcome.ok.inj h).symm⟩
  · rw [if_neg ht] at h; cases h

theorem inv_step {f f' : Fw D} (h : Inv f) {e : Ev D} (hs : step f e = .ok f') : Inv f' := by
  cases e with
  | tick t =>
    obtain ⟨ht, rfl⟩ := step_tick_cases hs
    refine ⟨fun x => le_trans (h.latch x) ht, h.act, ?_, h.uniq, h.allowed, h.stated, h.buffered, h.obs, h.keys, h.outs⟩
    intro i c hc
    obtain ⟨a, b, c1, d⟩ := h.loaded i c hc
    exact ⟨a, fun x => le_trans (b x) ht, fun x => le_trans (c1 x) ht, fun x => le_trans (d x) ht⟩
  | latch =>
    obtain ⟨_, ht, rfl⟩ := step_latch_cases hs
    exact ⟨fun _ => ht, h.act, h.loaded, h.uniq, h.allowed, h.stated, h.buffered, h.obs, h.keys, h.outs⟩
  | msg m => rw [step] at hs; rw [← Outcome.ok.inj hs]; exact inv_process h m
  | allow k a => rw [step] at hs; exact inv_setAllowance h hs
  | step i => rw [step] at hs; exact inv_stateStep h hs
  | read i =>
    obtain ⟨c, hc, ho, rfl⟩ := step_read_cases hs
    have back : ∀ (j : Nat) (d : Call), (f.calls.set i { c with obs := c.obs.tail })[j]? = some d → ∃ d', f.calls[j]? = some d' ∧
        d'.key = d.key ∧ d'.allow = d.allow ∧ d'.live = d.live ∧ d'.sections = d.sections ∧ d'.loaded = d.loaded ∧
        d.obs.length ≤ d'.obs.length := by
      intro j d hd
      rcases getElem?_set_some hc hd with ⟨rfl, rfl⟩ | ⟨_, hd1⟩
      · exact ⟨c, hc, rfl, rfl, rfl, rfl, rfl, by simp⟩
      · exact ⟨d, hd1, rfl, rfl, rfl, rfl, rfl, le_refl _⟩
    have fwd : ∀ j d, Act f j d → ∃ d', Act { f with calls := f.calls.set i { c with obs := c.obs.tail } } j d' ∧
        d'.key = d.key ∧ d'.sections = d.sections := by
      intro j d hd
      by_cases e : j = i
      · subst e
        have : d = c := Option.some.inj (hd.1.symm.trans hc)
        subst this
        exact ⟨_, ⟨getElem?_set_self _ hc, hd.2⟩, rfl, rfl⟩
      · exact ⟨d, ⟨by rw [getElem?_set_other _ e]; exact hd.1, hd.2⟩, rfl, rfl⟩
    refine ⟨h.latch, ?_, ?_, ?_, ?_, ?_, ?_, ?_, ?_, h.outs⟩
    · intro j d hd
      obtain ⟨d', h1, h2, h3, h4, h5, h6, h7⟩ := back j d hd.1
      rw [← h2, ← h3, ← h5]
      exact h.act j d' ⟨h1, by rw [h4]; exact hd.2.1, by rw [h5]; exact hd.2.2⟩
    · intro j d hd
      obtain ⟨d', h1, h2, h3, h4, h5, h6, h7⟩ := back j d hd
      rw [← h6, ← h3, ← h5]; exact h.loaded j d' h1
    · intro j d j' d' hd hd' e
      obtain ⟨x, h1, h2, h3, h4, h5, h6, h7⟩ := back j d hd.1
      obtain ⟨y, g1, g2, g3, g4, g5, g6, g7⟩ := back j' d' hd'.1
      exact h.uniq j x j' y ⟨h1, by rw [h4]; exact hd.2.1, by rw [h5]; exact hd.2.2⟩
        ⟨g1, by rw [g4]; exact hd'.2.1, by rw [g5]; exact hd'.2.2⟩ (by rw [h2, g2, e])
    · intro k a hk
      obtain ⟨j, d, hd, e⟩ := h.allowed k a hk
      obtain ⟨d', h1, h2, _⟩ := fwd j d hd
      exact ⟨j, d', h1, h2.trans e⟩
    · intro k a hk
      obtain ⟨j, d, hd, e⟩ := h.stated k a hk
      obtain ⟨d', h1, h2, _⟩ := fwd j d hd
      exact ⟨j, d', h1, h2.trans e⟩
    · intro k b hk
      obtain ⟨⟨j, d, hd, e, hs2⟩, z⟩ := h.buffered k b hk
      obtain ⟨d', h1, h2, h3⟩ := fwd j d hd
      exact ⟨⟨j, d', h1, h2.trans e, h3.trans hs2⟩, z⟩
    · intro j d hd
      obtain ⟨d', h1, h2, h3, h4, h5, h6, h7⟩ := back j d hd
      obtain ⟨x, y, z⟩ := h.obs j d' h1
      rw [h5] at x y z; rw [h4] at z
      exact ⟨le_trans h7 x, y, z⟩
    · intro j d hd
      obtain ⟨d', h1, h2, _⟩ := back j d hd
      rw [← h2]; exact h.keys j d' h1

theorem inv_run {f f' : Fw D} (h : Inv f) {es : List (Ev D)} (hs : run f es = .ok f') : Inv f' := by
  induction es generalizing f with
  | nil => rw [run] at hs; rw [← Outcome.ok.inj hs]; exact h
  | cons e es ih =>
    rw [run, Outcome.bind_eq_ok] at hs
    obtain ⟨g, h1, h2⟩ := hs
    exact ih (inv_step h h1) h2

end Verif.Firewall
