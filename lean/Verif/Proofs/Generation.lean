import Verif.Proofs.ProtTrail
import Verif.Proofs.Dkg
import Verif.Spec.Generation

/-! A key generation among honest members, followed through its stages. -/
namespace Verif.Generation
open Verif.Prot Verif.Spec.Prot Verif.Spec.Generation Verif.Dkg Verif.Dto Verif.Dss
variable {K : Type}

/-- What the run accepts among messages with op codes up to `k` is said by honest members to this one. -/
def Fine (c : Conf Dto Obj (Data K)) (net : Net) (k : Int) (ms : List (Message Dto)) : Prop :=
  ∀ m ∈ ms, m.op ≤ k → (∃ a, Accepts c m a) → Says net c.members c.pc c.id m ∧ m.rcpt = c.self

/-- All that honest members say to this one with op codes up to `k` is there. -/
def Full (c : Conf Dto Obj (Data K)) (net : Net) (k : Int) (ms : List (Message Dto)) : Prop :=
  ∀ m, Says net c.members c.pc c.id m → m.rcpt = c.self → m.op ≤ k → m ∈ ms

/-- Later stages leave the generation alone. -/
structure Later (rest : List (Stage Dto Obj (Data K))) : Prop where
  step : ∀ s ∈ rest, ∀ f, s.step = some f → ∀ u u' as, f u = .ok (u', as) → u'.kyb = u.kyb ∧ u'.qual = u.qual ∧ (∃ o, u'.out = u.out ++ o) ∧
    ∀ a ∈ as, ActOk (fun op _ => 9 ≤ op) a
  proc : ∀ s ∈ rest, ∀ f, s.proc = some f → ∀ u a u' as, f u a = .ok (u', as) → u'.kyb = u.kyb ∧ u'.qual = u.qual ∧ (∃ o, u'.out = u.out ++ o) ∧
    ∀ a ∈ as, ActOk (fun op _ => 9 ≤ op) a

/-- A protocol that begins with the stages of the key generation. -/
def confOf (y : Kyb K) (pc : Int) (id : String) (i n : Nat) (rest : List (Stage Dto Obj (Data K))) : Conf Dto Obj (Data K) :=
  ⟨pc, id, i, n, dkgStages y ++ rest⟩

section
variable {y : Kyb K} {pc : Int} {id : String} {i n : Nat} {rest : List (Stage Dto Obj (Data K))} {net : Net}

theorem stage_cases {k : Int} {s : Stage Dto Obj (Data K)} (h : (confOf y pc id i n rest).stage? k = some s) :
    (k = 0 ∧ s = psStep stepInit) ∨ (k = 1 ∧ s = psProc (some (stepDeal y)) (processDeal y) .deal dealV) ∨
    (k = 2 ∧ s = psProc none (processResponse y) .response responseV) ∨
    (k = 3 ∧ s = psProc none (processJustification y) .justification justificationV) ∨ (k = 4 ∧ s = psStep (stepVssDone y)) ∨
    (k = 5 ∧ s = psProc (some (stepCommits y)) (processCommits y) .commits commitsV) ∨
    (k = 6 ∧ s = psProc none (processComplCommits y) .complCommits complCommitsV) ∨
    (k = 7 ∧ s = psProc none (processReconsCommits y) .reconsCommits reconsCommitsV) ∨ (k = 8 ∧ s = psStep (stepFinal y)) ∨
    (9 ≤ k ∧ s ∈ rest) := by
  obtain ⟨h0, h⟩ := stage?_some h
  obtain ⟨j, rfl⟩ := Int.eq_ofNat_of_zero_le h0
  rw [Int.toNat_natCast] at h
  by_cases hj : j < 9
  · have h : (dkgStages y ++ rest)[j]? = some s := h
    rw [List.getElem?_append_left (by exact hj)] at h
    match j, hj with
    | 0, _ => exact .inl ⟨rfl, (Option.some.inj h).symm⟩
    | 1, _ => exact .inr (.inl ⟨rfl, (Option.some.inj h).symm⟩)
    | 2, _ => exact .inr (.inr (.inl ⟨rfl, (Option.some.inj h).symm⟩))
    | 3, _ => exact .inr (.inr (.inr (.inl ⟨rfl, (Option.some.inj h).symm⟩)))
    | 4, _ => exact .inr (.inr (.inr (.inr (.inl ⟨rfl, (Option.some.inj h).symm⟩))))
    | 5, _ => exact .inr (.inr (.inr (.inr (.inr (.inl ⟨rfl, (Option.some.inj h).symm⟩)))))
    | 6, _ => exact .inr (.inr (.inr (.inr (.inr (.inr (.inl ⟨rfl, (Option.some.inj h).symm⟩))))))
    | 7, _ => exact .inr (.inr (.inr (.inr (.inr (.inr (.inr (.inl ⟨rfl, (Option.some.inj h).symm⟩)))))))
    | 8, _ => exact .inr (.inr (.inr (.inr (.inr (.inr (.inr (.inr (.inl ⟨rfl, (Option.some.inj h).symm⟩))))))))
  · have h : (dkgStages y ++ rest)[j]? = some s := h
    rw [List.getElem?_append_right (by exact Nat.le_of_not_lt hj)] at h
    exact .inr (.inr (.inr (.inr (.inr (.inr (.inr (.inr (.inr ⟨by omega, List.mem_of_getElem? h⟩))))))))

theorem uint32_small {a : Nat} (h : n ≤ 2 ^ 32) (ha : a < n) : uint32 (a : Int) = a := by
  rw [uint32, Int.emod_eq_of_lt (by omega) (by omega)]; exact Int.toNat_natCast a

/-- What honest members say passes the checks. -/
theorem says_accepted (hn : Proper net n) {m : Message Dto} (h : Says net n pc id m) (hr : m.rcpt = (i : Int)) :
    ∃ a, Accepts (confOf y pc id i n rest) m a := by
  cases h with
  | @deal a b x ha hb hab hx =>
    obtain ⟨h1, x', h2, h3⟩ := hn.deal a b ha hb hab
    rw [h2] at hx
    have := Outcome.ok.inj hx
    subst this
    refine ⟨.deal (net.deal a b), psProc (some (stepDeal y)) (processDeal y) .deal dealV, rfl, by simp, rfl, rfl, ?_, by simp, ?_, ?_⟩
    · show unmarshal .deal (.deal x') = _
      rw [unmarshal, h3]; rfl
    · show (a : Int) < (n : Int); have := hn.on a ha; omega
    · show dealV (.deal (net.deal a b)) a = .ok true
      rw [dealV, h1, uint32_small hn.few (hn.on a ha)]; simp
  | @response v b d hv hb hd hvb hdv =>
    obtain ⟨_, w, h2, h3⟩ := hn.resp d v hd hv hdv
    refine ⟨.response (net.resp d v), psProc none (processResponse y) .response responseV, rfl, by simp, rfl, rfl, rfl, by simp, ?_, ?_⟩
    · show (v : Int) < (n : Int); have := hn.on v hv; omega
    · show responseV (.response (net.resp d v)) v = .ok true
      rw [responseV, h2]
      dsimp only
      rw [h3, uint32_small hn.few (hn.on v hv)]; simp
  | @commits a b x ha hb hab hx =>
    obtain ⟨h1, x', h2, h3⟩ := hn.commits a ha
    rw [h2] at hx
    have := Outcome.ok.inj hx
    subst this
    refine ⟨.commits (net.commits a), psProc (some (stepCommits y)) (processCommits y) .commits commitsV, rfl, by simp, rfl, rfl, ?_, by simp, ?_, ?_⟩
    · show unmarshal .commits (.commits x') = _
      rw [unmarshal, h3]; rfl
    · show (a : Int) < (n : Int); have := hn.on a ha; omega
    · show commitsV (.commits (net.commits a)) a = .ok true
      rw [commitsV, h1, uint32_small hn.few (hn.on a ha)]; simp

theorem says_op {m : Message Dto} (h : Says net n pc id m) : m.op = 1 ∨ m.op = 2 ∨ m.op = 5 := by
  cases h <;> simp

/-- The object in a message. -/
theorem accepted_obj {m : Message Dto} {a : Obj} {s : Stage Dto Obj (Data K)} (hs : (confOf y pc id i n rest).stage? m.op = some s)
    (h : Accepts (confOf y pc id i n rest) m a) : s.unmarshal m.dto = .ok a := by
  obtain ⟨s', h1, _, _, _, h2, _⟩ := h
  obtain ⟨_, h3⟩ := stage?_some hs
  rw [h3] at h1
  rw [Option.some.inj h1]; exact h2

/-- What `step_deal` sends. -/
theorem sendDeals_mem (ds : List (Int × Deal)) {as : List (Act Dto)} (h : sendDeals ds = .ok as) (a : Act Dto) :
    a ∈ as ↔ ∃ p ∈ ds, ∃ x, dealToDto p.2 = .ok x ∧ a = .send p.1 opDeal (.deal x) := by
  induction ds generalizing as with
  | nil => rw [sendDeals] at h; rw [← Outcome.ok.inj h]; simp
  | cons p ps ih =>
    rw [sendDeals, Outcome.bind_eq_ok] at h
    obtain ⟨dto, h1, h⟩ := h
    rw [Outcome.bind_eq_ok] at h
    obtain ⟨as', h2, h⟩ := h
    rw [Outcome.pure_eq] at h
    rw [← Outcome.ok.inj h, List.mem_append, ih h2]
    have : a ∈ dto.toList.map (fun dto => Act.send p.1 opDeal (.deal dto)) ↔ ∃ x, dealToDto p.2 = .ok x ∧ a = .send p.1 opDeal (.deal x) := by
      cases hd : dealToDto p.2 with
      | panic => rw [hd] at h1; cases h1
      | err => rw [hd] at h1; rw [← Outcome.ok.inj h1]; simp
      | ok x =>
        rw [hd] at h1; rw [← Outcome.ok.inj h1]
        simp only [Option.toList_some, List.map_cons, List.map_nil, List.mem_singleton]
        constructor
        · rintro rfl; exact ⟨x, rfl, rfl⟩
        · rintro ⟨x', e, rfl⟩; rw [Outcome.ok.inj e]
    rw [this]
    simp only [List.mem_cons, exists_eq_or_imp]

theorem fine_sub {c : Conf Dto Obj (Data K)} {k k' : Int} {ms ms' : List (Message Dto)} (h : Fine c net k ms) (hk : k' ≤ k) (hs : ∀ m ∈ ms', m.op ≤ k' → m ∈ ms) :
    Fine c net k' ms' := fun m hm ho => h m (hs m hm ho) (by omega)

theorem full_sub {c : Conf Dto Obj (Data K)} {k k' : Int} {ms ms' : List (Message Dto)} (h : Full c net k ms) (hk : k' ≤ k)
    (hs : ∀ m ∈ ms, m.op ≤ k' → m ∈ ms') : Full c net k' ms' := fun m hm hr ho => hs m (h m hm hr (by omega)) ho

end

/-- What was asked for so far is what honest members say. -/
def Sound (c : Conf Dto Obj (Data K)) (net : Net) (ms qs : List (Message Dto)) : Prop :=
  ∀ q ∈ qs, q.op ≤ 8 → Fine c net (q.op - 1) ms → Full c net (q.op - 2) ms → Says net c.members c.pc c.id q ∧ q.sender = c.self

/-- All that an honest member says up to stage `k` was asked for. -/
def Complete (c : Conf Dto Obj (Data K)) (net : Net) (k : Int) (ms qs : List (Message Dto)) : Prop :=
  ∀ q, Says net c.members c.pc c.id q → q.sender = c.self → q.op ≤ k → Fine c net (q.op - 1) ms → Full c net (q.op - 1) ms → q ∈ qs

/-- The data in each stage. -/
structure Dat (c : Conf Dto Obj (Data K)) (net : Net) (k0 : K) (ph : Phases K) (i : Nat) (k : Int) (ms qs : List (Message Dto)) (u : Data K) : Prop where
  start : k = -1 → u.kyb = k0 ∧ u.out = []
  init : k = 0 → u.kyb = k0 ∧ u.out = [] ∧ ∃ q, u.qual = some q
  deal : k = 1 → Fine c net 1 ms → u.out = [] ∧ (∃ q, u.qual = some q) ∧ ∃ js, ph.dealing js u.kyb ∧
    (∀ (j : Nat) m, m ∈ ms → Says net c.members c.pc c.id m → m.rcpt = c.self → m.op = 1 → m.sender = j → j ∈ js) ∧
    ∀ j ∈ js, ∀ b < c.members, b ≠ i → (⟨i, c.pc, b, c.id, 2, .response (net.resp j i)⟩ : Message Dto) ∈ qs
  resp : k = 2 ∨ k = 3 → Fine c net k ms → Full c net 1 ms → u.out = [] ∧ (∃ q, u.qual = some q) ∧ ∃ ps, ph.responding ps u.kyb ∧
    ∀ d v, net.on d → net.on v → v ≠ i → d ≠ v → (⟨v, c.pc, i, c.id, 2, .response (net.resp d v)⟩ : Message Dto) ∈ ms → (d, v) ∈ ps
  settle : k = 4 → Fine c net 3 ms → Full c net 2 ms → u.out = [] ∧ (∃ q, u.qual = some q) ∧ ph.settled u.kyb
  commit : 5 ≤ k → k ≤ 7 → Fine c net k ms → Full c net 2 ms → u.out = [] ∧ (∃ q, u.qual = some q ∧ Qualify net q) ∧
    ∃ js, ph.committing js u.kyb ∧ ∀ (j : Nat) m, m ∈ ms → Says net c.members c.pc c.id m → m.rcpt = c.self → m.op = 5 → m.sender = j → j ∈ js
  final : 8 ≤ k → Fine c net 7 ms → Full c net 5 ms → ∃ q o, u.qual = some q ∧ Qualify net q ∧
    u.out = .key (net.key i) q :: o ∧ (k = 8 → o = []) ∧ ∃ js, ph.committing js u.kyb ∧ ∀ j, net.on j → j ≠ i → j ∈ js

/-- What holds in each stage. -/
structure In (c : Conf Dto Obj (Data K)) (net : Net) (k0 : K) (ph : Phases K) (i : Nat) (k : Int) (ms qs : List (Message Dto)) (u : Data K) : Prop where
  low : ∀ m ∈ ms, m.op ≤ k
  reqs : ∀ q ∈ qs, q.op ≤ 8 → q.op ≤ k + 1
  sound : Sound c net ms qs
  complete : Complete c net k ms qs
  dat : Dat c net k0 ph i k ms qs u

/-- When a run can give up. -/
structure Up (c : Conf Dto Obj (Data K)) (net : Net) (k : Int) (ms qs : List (Message Dto)) : Prop where
  low : k ≤ 8 → ∀ m ∈ ms, m.op < k
  reqs : ∀ q ∈ qs, q.op ≤ 8 → q.op ≤ k
  sound : Sound c net ms qs
  complete : Complete c net (k - 1) ms qs
  why : k ≤ 8 → ¬ (Fine c net (k - 1) ms ∧ Full c net (k - 1) ms)

section
variable {y : Kyb K} {pc : Int} {id : String} {i n : Nat} {rest : List (Stage Dto Obj (Data K))} {net : Net} {k0 : K} {ph : Phases K}

theorem sound_mono {c : Conf Dto Obj (Data K)} {k : Int} {ms ms' qs : List (Message Dto)} (h : Sound c net ms qs) (hq : ∀ q ∈ qs, q.op ≤ 8 → q.op ≤ k + 1)
    (hs : ∀ m ∈ ms, m ∈ ms') (hs' : ∀ m ∈ ms', m.op < k → m ∈ ms) : Sound c net ms' qs := by
  intro q hqm h8 h1 h2
  have := hq q hqm h8
  exact h q hqm h8 (fine_sub h1 (le_refl _) fun m hm _ => hs m hm) (full_sub h2 (le_refl _) fun m hm ho => hs' m hm (by omega))

theorem complete_mono {c : Conf Dto Obj (Data K)} {k : Int} {ms ms' qs qs' : List (Message Dto)} (h : Complete c net k ms qs)
    (hs : ∀ m ∈ ms, m ∈ ms') (hs' : ∀ m ∈ ms', m.op < k → m ∈ ms) (hq : ∀ q ∈ qs, q ∈ qs') : Complete c net k ms' qs' :=
  fun q h1 h2 h3 h4 h5 => hq q (h q h1 h2 h3 (fine_sub h4 (le_refl _) fun m hm _ => hs m hm)
    (full_sub h5 (le_refl _) fun m hm ho => hs' m hm (by omega)))

theorem sound_append {c : Conf Dto Obj (Data K)} {ms qs qs' : List (Message Dto)} (h : Sound c net ms qs) (h' : Sound c net ms qs') :
    Sound c net ms (qs ++ qs') := by
  intro q hq
  rcases List.mem_append.1 hq with hq | hq
  · exact h q hq
  · exact h' q hq

theorem mem_asks {c : Conf Dto Obj (Data K)} {Q : Int → Dto → Prop} {a : Act Dto} (ha : ActOk Q a) {q : Message Dto} (hq : q ∈ asks c a) : Q q.op q.dto := by
  cases a with
  | send i op dto => rw [asks, List.mem_singleton] at hq; subst hq; exact ha
  | broadcast op dto =>
    rw [asks, List.mem_map] at hq
    obtain ⟨_, _, rfl⟩ := hq; exact ha
  | multicast is op dto =>
    rw [asks, List.mem_map] at hq
    obtain ⟨_, _, rfl⟩ := hq; exact ha
  | abandon => cases hq

theorem in_proc {c : Conf Dto Obj (Data K)} {k : Int} {ms qs qs' : List (Message Dto)} {u u' : Data K} {m : Message Dto}
    (h : In c net k0 ph i k ms qs u) (hm : m.op = k) (hq : ∀ q ∈ qs', q.op ≤ 8 → q.op = k + 1) (hs : Sound c net (ms ++ [m]) qs')
    (hd : Dat c net k0 ph i k (ms ++ [m]) (qs ++ qs') u') : In c net k0 ph i k (ms ++ [m]) (qs ++ qs') u' := by
  have sub : ∀ m' ∈ ms ++ [m], m'.op < k → m' ∈ ms := by
    intro m' hm' ho
    rcases List.mem_append.1 hm' with h | h
    · exact h
    · rw [List.mem_singleton] at h; subst h; omega
  refine ⟨?_, ?_, ?_, ?_, hd⟩
  · intro m' hm'
    rcases List.mem_append.1 hm' with h' | h'
    · exact h.low m' h'
    · rw [List.mem_singleton] at h'; subst h'; omega
  · intro q hq' h8
    rcases List.mem_append.1 hq' with h' | h'
    · exact h.reqs q h' h8
    · exact le_of_eq (hq q h' h8)
  · exact sound_append (sound_mono h.sound h.reqs (fun _ hm => List.mem_append_left _ hm) sub) hs
  · exact complete_mono h.complete (fun _ hm => List.mem_append_left _ hm) sub (fun _ hq => List.mem_append_left _ hq)

theorem in_step {c : Conf Dto Obj (Data K)} {k : Int} {ms qs qs' : List (Message Dto)} {u u' : Data K}
    (h : In c net k0 ph i (k - 1) ms qs u) (hq : ∀ q ∈ qs', q.op ≤ 8 → q.op = k) (hs : Sound c net ms qs')
    (hc : ∀ q, Says net c.members c.pc c.id q → q.sender = c.self → q.op = k → Fine c net (k - 1) ms → Full c net (k - 1) ms → q ∈ qs ++ qs')
    (hd : Dat c net k0 ph i k ms (qs ++ qs') u') : In c net k0 ph i k ms (qs ++ qs') u' := by
  refine ⟨fun m hm => by have := h.low m hm; omega, ?_, sound_append h.sound hs, ?_, hd⟩
  · intro q hq' h8
    rcases List.mem_append.1 hq' with h' | h'
    · have := h.reqs q h' h8; omega
    · have := hq q h' h8; omega
  · intro q h1 h2 h3 h4 h5
    by_cases h6 : q.op = k
    · exact hc q h1 h2 h6 (h6 ▸ h4) (h6 ▸ h5)
    · exact List.mem_append_left _ (h.complete q h1 h2 (by omega) h4 h5)

theorem up_step {c : Conf Dto Obj (Data K)} {k : Int} {ms qs qs' : List (Message Dto)} {u : Data K}
    (h : In c net k0 ph i (k - 1) ms qs u) (hq : ∀ q ∈ qs', q.op ≤ 8 → q.op = k) (hs : Sound c net ms qs')
    (hw : k ≤ 8 → ¬ (Fine c net (k - 1) ms ∧ Full c net (k - 1) ms)) : Up c net k ms (qs ++ qs') := by
  refine ⟨fun _ m hm => by have := h.low m hm; omega, ?_, sound_append h.sound hs, ?_, hw⟩
  · intro q hq' h8
    rcases List.mem_append.1 hq' with h' | h'
    · have := h.reqs q h' h8; omega
    · have := hq q h' h8; omega
  · exact fun q h1 h2 h3 h4 h5 => List.mem_append_left _ (h.complete q h1 h2 h3 h4 h5)

theorem sound_nil {c : Conf Dto Obj (Data K)} {ms : List (Message Dto)} : Sound c net ms [] := fun _ h => absurd h List.not_mem_nil

theorem mem_broadcast {y : Kyb K} {pc : Int} {id : String} {i n : Nat} {rest : List (Stage Dto Obj (Data K))} {op : Int} {dto : Dto} {q : Message Dto} :
    q ∈ [Act.broadcast op dto].flatMap (asks (confOf y pc id i n rest)) ↔ ∃ b : Nat, b < n ∧ b ≠ i ∧ q = ⟨i, pc, b, id, op, dto⟩ := by
  rw [List.flatMap_cons, List.flatMap_nil, List.append_nil, asks, List.mem_map]
  constructor
  · rintro ⟨x, hx, rfl⟩
    obtain ⟨h1, h2⟩ := List.mem_filter.1 hx
    obtain ⟨b, h3, rfl⟩ := List.mem_map.1 h1
    have h2 : (Int.ofNat b : Int) ≠ (i : Int) := of_decide_eq_true h2
    exact ⟨b, List.mem_range.1 h3, fun e => h2 (by rw [e]; rfl), rfl⟩
  · rintro ⟨b, h1, h2, rfl⟩
    refine ⟨b, List.mem_filter.2 ⟨List.mem_map.2 ⟨b, List.mem_range.2 h1, rfl⟩, decide_eq_true ?_⟩, rfl⟩
    show (b : Int) ≠ (i : Int)
    omega

theorem mem_multicast {y : Kyb K} {pc : Int} {id : String} {i n : Nat} {rest : List (Stage Dto Obj (Data K))} {is : List Int} {op : Int} {dto : Dto} {q : Message Dto} :
    q ∈ [Act.multicast is op dto].flatMap (asks (confOf y pc id i n rest)) ↔ ∃ x ∈ is, x ≠ (i : Int) ∧ q = ⟨i, pc, x, id, op, dto⟩ := by
  rw [List.flatMap_cons, List.flatMap_nil, List.append_nil, asks, List.mem_map]
  constructor
  · rintro ⟨x, hx, rfl⟩
    obtain ⟨h1, h2⟩ := List.mem_filter.1 hx
    exact ⟨x, h1, of_decide_eq_true h2, rfl⟩
  · rintro ⟨x, h1, h2, rfl⟩
    exact ⟨x, List.mem_filter.2 ⟨h1, decide_eq_true h2⟩, rfl⟩

/-- What `process_deal` does. -/
theorem processDeal_acts {u u' : Data K} {a : Obj} {as : List (Act Dto)} (h : processDeal y u a = .ok (u', as)) :
    ∃ d, a = .deal d ∧ u' = { u with kyb := (y.processDeal u.kyb d).1 } ∧
      ((∃ r, (y.processDeal u.kyb d).2 = .ok (some r) ∧ as = [.broadcast opResponse (.response r)]) ∨
       ((∀ r, (y.processDeal u.kyb d).2 ≠ .ok (some r)) ∧ as = [])) := by
  cases a with
  | deal d =>
    refine ⟨d, rfl, ?_⟩
    rw [processDeal] at h
    cases hp : (y.processDeal u.kyb d).2 with
    | panic => rw [hp] at h; cases h
    | err =>
      rw [hp] at h; have := Outcome.ok.inj h; injection this with e1 e2
      exact ⟨e1.symm, .inr ⟨nofun, e2.symm⟩⟩
    | ok x =>
      rw [hp] at h
      cases x with
      | none =>
        have := Outcome.ok.inj h; injection this with e1 e2
        exact ⟨e1.symm, .inr ⟨nofun, e2.symm⟩⟩
      | some r =>
        have := Outcome.ok.inj h; injection this with e1 e2
        exact ⟨e1.symm, .inl ⟨r, rfl, e2.symm⟩⟩
  | _ => cases h

/-- What `process_response` does. -/
theorem processResponse_acts {u u' : Data K} {a : Obj} {as : List (Act Dto)} (h : processResponse y u a = .ok (u', as)) :
    ∃ r, a = .response r ∧ u' = { u with kyb := (y.processResponse u.kyb r).1 } ∧
      ((∃ j x, (y.processResponse u.kyb r).2 = .ok (some j) ∧ as = [.broadcast opJustification (.justification x)]) ∨ as = []) := by
  cases a with
  | response r =>
    refine ⟨r, rfl, ?_⟩
    rw [processResponse] at h
    cases hp : (y.processResponse u.kyb r).2 with
    | panic => rw [hp] at h; cases h
    | err => rw [hp] at h; have := Outcome.ok.inj h; injection this with e1 e2; exact ⟨e1.symm, .inr e2.symm⟩
    | ok x =>
      rw [hp] at h
      cases x with
      | none => have := Outcome.ok.inj h; injection this with e1 e2; exact ⟨e1.symm, .inr e2.symm⟩
      | some j =>
        dsimp only at h
        cases hj : justificationToDto j with
        | panic => rw [hj] at h; cases h
        | err => rw [hj] at h; have := Outcome.ok.inj h; injection this with e1 e2; exact ⟨e1.symm, .inr e2.symm⟩
        | ok x => rw [hj] at h; have := Outcome.ok.inj h; injection this with e1 e2; exact ⟨e1.symm, .inl ⟨j, x, rfl, e2.symm⟩⟩
  | _ => cases h

theorem broadcastQual_cases {T S : Type} {u : Data K} {op : Int} {wrap : S → Dto} {mar : T → Outcome S} {x : T} {as : List (Act Dto)}
    (h : broadcastQual u op wrap mar x = .ok as) :
    (∃ q dto, u.qual = some q ∧ mar x = .ok dto ∧ as = [.multicast q op (wrap dto)]) ∨ (mar x = .err ∧ as = []) := by
  rw [broadcastQual] at h
  cases hm : mar x with
  | panic => rw [hm] at h; cases h
  | err => rw [hm] at h; exact .inr ⟨rfl, (Outcome.ok.inj h).symm⟩
  | ok dto =>
    rw [hm] at h
    dsimp only at h
    cases hq : u.qual with
    | none => rw [hq] at h; cases h
    | some q => rw [hq] at h; exact .inl ⟨q, dto, rfl, rfl, (Outcome.ok.inj h).symm⟩

/-- What `process_commits` does. -/
theorem processCommits_acts {u u' : Data K} {a : Obj} {as : List (Act Dto)} (h : processCommits y u a = .ok (u', as)) :
    ∃ r, a = .commits r ∧ u' = { u with kyb := (y.processSecretCommits u.kyb r).1 } ∧
      ((∃ j q x, (y.processSecretCommits u.kyb r).2 = .ok (some j) ∧ as = [.multicast q opComplCommits (.complCommits x)]) ∨ as = []) := by
  cases a with
  | commits r =>
    refine ⟨r, rfl, ?_⟩
    rw [processCommits] at h
    cases hp : (y.processSecretCommits u.kyb r).2 with
    | panic => rw [hp] at h; cases h
    | err => rw [hp] at h; have := Outcome.ok.inj h; injection this with e1 e2; exact ⟨e1.symm, .inr e2.symm⟩
    | ok x =>
      rw [hp] at h
      cases x with
      | none => have := Outcome.ok.inj h; injection this with e1 e2; exact ⟨e1.symm, .inr e2.symm⟩
      | some j =>
        dsimp only at h
        rw [Outcome.bind_eq_ok] at h
        obtain ⟨as', h1, h⟩ := h
        have := Outcome.ok.inj h
        injection this with e1 e2
        subst e2
        rcases broadcastQual_cases h1 with ⟨q, x, _, _, e⟩ | ⟨_, e⟩
        · exact ⟨e1.symm, .inl ⟨j, q, x, rfl, e⟩⟩
        · exact ⟨e1.symm, .inr e⟩
  | _ => cases h

/-- What `process_compl_commits` does. -/
theorem processComplCommits_acts {u u' : Data K} {a : Obj} {as : List (Act Dto)} (h : processComplCommits y u a = .ok (u', as)) :
    (∃ q x, as = [.multicast q opReconsCommits (.reconsCommits x)]) ∨ as = [] := by
  cases a with
  | complCommits r =>
    rw [processComplCommits] at h
    cases hp : (y.processComplaintCommits u.kyb r).2 with
    | panic => rw [hp] at h; cases h
    | err => rw [hp] at h; have := Outcome.ok.inj h; injection this with e1 e2; exact .inr e2.symm
    | ok x =>
      rw [hp] at h
      cases x with
      | none => have := Outcome.ok.inj h; injection this with e1 e2; exact .inr e2.symm
      | some j =>
        dsimp only at h
        rw [Outcome.bind_eq_ok] at h
        obtain ⟨as', h1, h⟩ := h
        have := Outcome.ok.inj h
        injection this with e1 e2
        subst e2
        rcases broadcastQual_cases h1 with ⟨q, x, _, _, e⟩ | ⟨_, e⟩
        · exact .inl ⟨q, x, e⟩
        · exact .inr e
  | _ => cases h

theorem processJustification_acts {u u' : Data K} {a : Obj} {as : List (Act Dto)} (h : processJustification y u a = .ok (u', as)) : as = [] := by
  cases a with
  | justification j =>
    rw [processJustification] at h
    cases hp : (y.processJustification u.kyb j).2 with
    | panic => rw [hp] at h; cases h
    | err => rw [hp] at h; have := Outcome.ok.inj h; injection this with e1 e2; exact e2.symm
    | ok x => rw [hp] at h; have := Outcome.ok.inj h; injection this with e1 e2; exact e2.symm
  | _ => cases h

theorem processReconsCommits_acts {u u' : Data K} {a : Obj} {as : List (Act Dto)} (h : processReconsCommits y u a = .ok (u', as)) : as = [] := by
  cases a with
  | reconsCommits j =>
    rw [processReconsCommits] at h
    cases hp : (y.processReconstructCommits u.kyb j).2 with
    | panic => rw [hp] at h; cases h
    | err => rw [hp] at h; have := Outcome.ok.inj h; injection this with e1 e2; exact e2.symm
    | ok x => rw [hp] at h; have := Outcome.ok.inj h; injection this with e1 e2; exact e2.symm
  | _ => cases h

/-- Messages of honest members to this one, by op code. -/
theorem says_deal {m : Message Dto} (h : Says net n pc id m) (h1 : m.op = 1) (hr : m.rcpt = (i : Int)) :
    ∃ j x, net.on j ∧ i < n ∧ j ≠ i ∧ dealToDto (net.deal j i) = .ok x ∧ m = ⟨j, pc, i, id, 1, .deal x⟩ := by
  cases h with
  | @deal a b x ha hb hab hx =>
    have : b = i := Int.ofNat.inj hr
    subst this
    exact ⟨a, x, ha, hb, hab, hx, rfl⟩
  | response => cases h1
  | commits => cases h1

theorem says_response {m : Message Dto} (h : Says net n pc id m) (h1 : m.op = 2) (hr : m.rcpt = (i : Int)) :
    ∃ v d, net.on v ∧ i < n ∧ net.on d ∧ v ≠ i ∧ d ≠ v ∧ m = ⟨v, pc, i, id, 2, .response (net.resp d v)⟩ := by
  cases h with
  | deal => cases h1
  | @response v b d hv hb hd hvb hdv =>
    have : b = i := Int.ofNat.inj hr
    subst this
    exact ⟨v, d, hv, hb, hd, hvb, hdv, rfl⟩
  | commits => cases h1

theorem says_commits {m : Message Dto} (h : Says net n pc id m) (h1 : m.op = 5) (hr : m.rcpt = (i : Int)) :
    ∃ j x, net.on j ∧ net.on i ∧ j ≠ i ∧ commitsToDto (net.commits j) = .ok x ∧ m = ⟨j, pc, i, id, 5, .commits x⟩ := by
  cases h with
  | deal => cases h1
  | response => cases h1
  | @commits a b x ha hb hab hx =>
    have : b = i := Int.ofNat.inj hr
    subst this
    exact ⟨a, x, ha, hb, hab, hx, rfl⟩

/-- The object in an accepted deal of an honest member. -/
theorem deal_obj (hn : Proper net n) {j : Nat} {x : DealDTO} {o : Obj} (hj : net.on j) (hi : i < n) (hji : j ≠ i)
    (hx : dealToDto (net.deal j i) = .ok x) (h : unmarshal .deal (.deal x) = .ok o) : o = .deal (net.deal j i) := by
  obtain ⟨_, x', h2, h3⟩ := hn.deal j i hj hi hji
  rw [h2] at hx
  rw [← Outcome.ok.inj hx, unmarshal, h3] at h
  exact (Outcome.ok.inj h).symm

theorem commits_obj (hn : Proper net n) {j : Nat} {x : CommitsDTO} {o : Obj} (hj : net.on j)
    (hx : commitsToDto (net.commits j) = .ok x) (h : unmarshal .commits (.commits x) = .ok o) : o = .commits (net.commits j) := by
  obtain ⟨_, x', h2, h3⟩ := hn.commits j hj
  rw [h2] at hx
  rw [← Outcome.ok.inj hx, unmarshal, h3] at h
  exact (Outcome.ok.inj h).symm

/-- A message that is accepted and handled by a run in which all is fine. -/
theorem fine_last {c : Conf Dto Obj (Data K)} {k : Int} {ms : List (Message Dto)} {m : Message Dto} (h : Fine c net k (ms ++ [m])) (ho : m.op ≤ k)
    {a : Obj} (ha : Accepts c m a) : Says net c.members c.pc c.id m ∧ m.rcpt = c.self := h m (by simp) ho ⟨a, ha⟩

theorem fine_init {c : Conf Dto Obj (Data K)} {k k' : Int} {ms : List (Message Dto)} {m : Message Dto} (h : Fine c net k (ms ++ [m])) (hk : k' ≤ k) :
    Fine c net k' ms := fine_sub h hk fun _ hm _ => List.mem_append_left _ hm

theorem full_init {c : Conf Dto Obj (Data K)} {k k' : Int} {ms : List (Message Dto)} {m : Message Dto} (h : Full c net k (ms ++ [m])) (hk : k' ≤ k)
    (hm : k' < m.op) : Full c net k' ms := by
  refine full_sub h hk fun m' hm' ho => ?_
  rcases List.mem_append.1 hm' with h' | h'
  · exact h'
  · rw [List.mem_singleton] at h'; subst h'; omega

/-- Deals. -/
theorem proc_deal (hi : net.on i) (hn : Proper net n) (g : Generates y net n i k0 ph) {m : Message Dto} {a : Obj} {ms qs : List (Message Dto)} {u u' : Data K}
    {as : List (Act Dto)} (hop : m.op = 1) (ha : Accepts (confOf y pc id i n rest) m a) (hu : unmarshal .deal m.dto = .ok a)
    (h : In (confOf y pc id i n rest) net k0 ph i 1 ms qs u) (hf : processDeal y u a = .ok (u', as)) :
    In (confOf y pc id i n rest) net k0 ph i 1 (ms ++ [m]) (qs ++ as.flatMap (asks (confOf y pc id i n rest))) u' ∧ Act.abandon ∉ as := by
  obtain ⟨d, ea, eu, hres⟩ := processDeal_acts hf
  subst ea eu
  have good : Fine (confOf y pc id i n rest) net 1 (ms ++ [m]) → ∃ j, net.on j ∧ j ≠ i ∧ i < n ∧ m.sender = (j : Int) ∧ d = net.deal j i := by
    intro hF
    obtain ⟨hsay, hr⟩ := fine_last hF (by omega) ha
    obtain ⟨j, x, h1, h2, h3, h4, rfl⟩ := says_deal hsay hop hr
    have := deal_obj hn h1 h2 h3 h4 hu
    injection this with this
    exact ⟨j, h1, h3, h2, rfl, this⟩
  have ops : ∀ q ∈ as.flatMap (asks (confOf y pc id i n rest)), q.op = 2 := by
    intro q hq
    rcases hres with ⟨r, _, rfl⟩ | ⟨_, rfl⟩
    · obtain ⟨b, _, _, rfl⟩ := mem_broadcast.1 hq; rfl
    · cases hq
  refine ⟨in_proc h hop (fun q hq _ => ops q hq) ?_ ?_, ?_⟩
  · intro q hq _ hF _
    rw [ops q hq] at hF
    obtain ⟨j, h1, h2, _, _, rfl⟩ := good hF
    obtain ⟨_, _, js, hd, _⟩ := h.dat.deal rfl (fine_init hF (by omega))
    obtain ⟨_, he⟩ := g.deal js u.kyb j hd h1 h2
    rcases hres with ⟨r, hr, rfl⟩ | ⟨_, rfl⟩
    · obtain ⟨b, hb, hbi, rfl⟩ := mem_broadcast.1 hq
      rw [he] at hr
      by_cases hjs : j ∈ js
      · rw [if_pos hjs] at hr; cases hr
      · rw [if_neg hjs] at hr
        have := Option.some.inj (Outcome.ok.inj hr)
        subst this
        exact ⟨.response hi hb h1 (Ne.symm hbi) h2, rfl⟩
    · cases hq
  · refine ⟨fun h => by omega, fun h => by omega, fun _ hF => ?_, fun h => by omega, fun h => by omega, fun h => by omega, fun h => by omega⟩
    obtain ⟨j, h1, h2, hi, hs, rfl⟩ := good hF
    obtain ⟨e1, e2, js, hd, hin, hout⟩ := h.dat.deal rfl (fine_init hF (by omega))
    obtain ⟨hd', he⟩ := g.deal js u.kyb j hd h1 h2
    refine ⟨e1, e2, js ++ [j], hd', ?_, ?_⟩
    · intro j' m' hm' hsay hr ho hs'
      rcases List.mem_append.1 hm' with hm' | hm'
      · exact List.mem_append_left _ (hin j' m' hm' hsay hr ho hs')
      · rw [List.mem_singleton] at hm'
        subst hm'
        have : j' = j := Int.ofNat.inj (hs'.symm.trans hs)
        rw [this]; simp
    · intro j' hj' b hb hbi
      by_cases hjs : j' ∈ js
      · exact List.mem_append_left _ (hout j' hjs b hb hbi)
      · have : j' = j := by
          rcases List.mem_append.1 hj' with h | h
          · exact absurd h hjs
          · exact List.mem_singleton.1 h
        subst this
        rw [if_neg hjs] at he
        refine List.mem_append_right _ ?_
        rcases hres with ⟨r, hr, rfl⟩ | ⟨hno, _⟩
        · rw [he] at hr
          have := Option.some.inj (Outcome.ok.inj hr)
          subst this
          exact mem_broadcast.2 ⟨b, hb, hbi, rfl⟩
        · exact absurd he (hno _)
  · rcases hres with ⟨r, _, rfl⟩ | ⟨_, rfl⟩ <;> simp

/-- Responses. -/
theorem proc_response (hn : Proper net n) (g : Generates y net n i k0 ph) {m : Message Dto} {a : Obj} {ms qs : List (Message Dto)} {u u' : Data K}
    {as : List (Act Dto)} (hop : m.op = 2) (ha : Accepts (confOf y pc id i n rest) m a) (hu : unmarshal .response m.dto = .ok a)
    (h : In (confOf y pc id i n rest) net k0 ph i 2 ms qs u) (hf : processResponse y u a = .ok (u', as)) :
    In (confOf y pc id i n rest) net k0 ph i 2 (ms ++ [m]) (qs ++ as.flatMap (asks (confOf y pc id i n rest))) u' ∧ Act.abandon ∉ as := by
  obtain ⟨r, ea, eu, hres⟩ := processResponse_acts hf
  subst ea eu
  have good : Fine (confOf y pc id i n rest) net 2 (ms ++ [m]) → ∃ v d, net.on v ∧ i < n ∧ net.on d ∧ v ≠ i ∧ d ≠ v ∧ r = net.resp d v ∧
      m = ⟨v, pc, i, id, 2, .response (net.resp d v)⟩ := by
    intro hF
    obtain ⟨hsay, hr⟩ := fine_last hF (by omega) ha
    obtain ⟨v, d, h1, h2, h3, h4, h5, rfl⟩ := says_response hsay hop hr
    have := Outcome.ok.inj hu
    injection this with this
    exact ⟨v, d, h1, h2, h3, h4, h5, this.symm, rfl⟩
  have ops : ∀ q ∈ as.flatMap (asks (confOf y pc id i n rest)), q.op = 3 := by
    intro q hq
    rcases hres with ⟨_, _, _, rfl⟩ | rfl
    · obtain ⟨b, _, _, rfl⟩ := mem_broadcast.1 hq; rfl
    · cases hq
  refine ⟨in_proc h hop (fun q hq _ => ops q hq) ?_ ?_, ?_⟩
  · intro q hq _ hF hG
    rw [ops q hq] at hF hG
    obtain ⟨v, d, h1, hi, h2, h3, h4, rfl, _⟩ := good hF
    obtain ⟨_, _, ps, hd, _⟩ := h.dat.resp (.inl rfl) (fine_init hF (by omega)) (full_init hG (by omega) (by omega))
    obtain ⟨_, he⟩ := g.resp ps u.kyb d v hd h2 h1 h3 h4
    rcases hres with ⟨j, x, hr, rfl⟩ | rfl
    · rw [he] at hr
      by_cases hjs : (d, v) ∈ ps
      · rw [if_pos hjs] at hr; cases hr
      · rw [if_neg hjs] at hr; cases hr
    · cases hq
  · refine ⟨fun h => by omega, fun h => by omega, fun h => by omega, fun _ hF hG => ?_, fun h => by omega, fun h => by omega, fun h => by omega⟩
    obtain ⟨v, d, h1, hi, h2, h3, h4, rfl, em⟩ := good hF
    obtain ⟨e1, e2, ps, hd, hin⟩ := h.dat.resp (.inl rfl) (fine_init hF (by omega)) (full_init hG (by omega) (by omega))
    obtain ⟨hd', he⟩ := g.resp ps u.kyb d v hd h2 h1 h3 h4
    refine ⟨e1, e2, ps ++ [(d, v)], hd', ?_⟩
    intro d' v' g1 g2 g3 g4 hm'
    rcases List.mem_append.1 hm' with hm' | hm'
    · exact List.mem_append_left _ (hin d' v' g1 g2 g3 g4 hm')
    · rw [List.mem_singleton] at hm'
      have e := hm'.trans em
      injection e with e1 _ _ _ _ e2
      injection e2 with e2
      have e3 : v' = v := Int.ofNat.inj e1
      subst e3
      have e4 : d' = d := by
        rw [← (hn.resp d' v' g1 g2 g4).1, ← (hn.resp d v' h2 h1 h4).1, e2]
      rw [e4]; simp
  · rcases hres with ⟨_, _, _, rfl⟩ | rfl <;> simp

/-- Commitments. -/
theorem proc_commits (hn : Proper net n) (g : Generates y net n i k0 ph) {m : Message Dto} {a : Obj} {ms qs : List (Message Dto)} {u u' : Data K}
    {as : List (Act Dto)} (hop : m.op = 5) (ha : Accepts (confOf y pc id i n rest) m a) (hu : unmarshal .commits m.dto = .ok a)
    (h : In (confOf y pc id i n rest) net k0 ph i 5 ms qs u) (hf : processCommits y u a = .ok (u', as)) :
    In (confOf y pc id i n rest) net k0 ph i 5 (ms ++ [m]) (qs ++ as.flatMap (asks (confOf y pc id i n rest))) u' ∧ Act.abandon ∉ as := by
  obtain ⟨r, ea, eu, hres⟩ := processCommits_acts hf
  subst ea eu
  have good : Fine (confOf y pc id i n rest) net 5 (ms ++ [m]) → ∃ j, net.on j ∧ j ≠ i ∧ m.sender = (j : Int) ∧ r = net.commits j := by
    intro hF
    obtain ⟨hsay, hr⟩ := fine_last hF (by omega) ha
    obtain ⟨j, x, h1, h2, h3, h4, rfl⟩ := says_commits hsay hop hr
    have := commits_obj hn h1 h4 hu
    injection this with this
    exact ⟨j, h1, h3, rfl, this⟩
  have ops : ∀ q ∈ as.flatMap (asks (confOf y pc id i n rest)), q.op = 6 := by
    intro q hq
    rcases hres with ⟨_, _, _, _, rfl⟩ | rfl
    · obtain ⟨b, _, _, rfl⟩ := mem_multicast.1 hq; rfl
    · cases hq
  refine ⟨in_proc h hop (fun q hq _ => ops q hq) ?_ ?_, ?_⟩
  · intro q hq _ hF hG
    rw [ops q hq] at hF hG
    obtain ⟨j, h1, h2, _, rfl⟩ := good hF
    obtain ⟨_, _, js, hd, _⟩ := h.dat.commit (by omega) (by omega) (fine_init hF (by omega)) (full_init hG (by omega) (by omega))
    obtain ⟨_, he⟩ := g.commits js u.kyb j hd h1 h2
    rcases hres with ⟨_, _, _, hr, rfl⟩ | rfl
    · rw [he] at hr; cases hr
    · cases hq
  · refine ⟨fun h => by omega, fun h => by omega, fun h => by omega, fun h => by omega, fun h => by omega, fun _ _ hF hG => ?_, fun h => by omega⟩
    obtain ⟨j, h1, h2, hs, rfl⟩ := good hF
    obtain ⟨e1, e2, js, hd, hin⟩ := h.dat.commit (by omega) (by omega) (fine_init hF (by omega)) (full_init hG (by omega) (by omega))
    obtain ⟨hd', _⟩ := g.commits js u.kyb j hd h1 h2
    refine ⟨e1, e2, js ++ [j], hd', ?_⟩
    intro j' m' hm' hsay hr ho hs'
    rcases List.mem_append.1 hm' with hm' | hm'
    · exact List.mem_append_left _ (hin j' m' hm' hsay hr ho hs')
    · rw [List.mem_singleton] at hm'
      subst hm'
      have : j' = j := Int.ofNat.inj (hs'.symm.trans hs)
      rw [this]; simp
  · rcases hres with ⟨_, _, _, _, rfl⟩ | rfl <;> simp

/-- What an honest member does not say. -/
theorem proc_other {m : Message Dto} {a : Obj} {ms qs : List (Message Dto)} {u u' : Data K} {as : List (Act Dto)}
    (hop : m.op = 3 ∨ m.op = 6 ∨ m.op = 7) (ha : Accepts (confOf y pc id i n rest) m a)
    (h : In (confOf y pc id i n rest) net k0 ph i m.op ms qs u) (hq : ∀ q ∈ as.flatMap (asks (confOf y pc id i n rest)), q.op = m.op + 1) :
    In (confOf y pc id i n rest) net k0 ph i m.op (ms ++ [m]) (qs ++ as.flatMap (asks (confOf y pc id i n rest))) u' := by
  have bad : ¬ Fine (confOf y pc id i n rest) net m.op (ms ++ [m]) := by
    intro hF
    have := says_op (fine_last hF (le_refl _) ha).1
    omega
  refine in_proc h rfl (fun q hq' _ => hq q hq') ?_ ?_
  · intro q hq' _ hF
    rw [hq q hq', show m.op + 1 - 1 = m.op by omega] at hF
    exact absurd hF bad
  · exact ⟨fun h => by omega, fun h => by omega, fun h => by omega, fun _ hF => absurd hF bad, fun h => by omega,
      fun _ _ hF => absurd hF bad, fun h => by omega⟩

/-- The step that deals. -/
theorem step_deal (hi : net.on i) (g : Generates y net n i k0 ph) {ms qs : List (Message Dto)} {u u' : Data K} {as : List (Act Dto)}
    (h : In (confOf y pc id i n rest) net k0 ph i 0 ms qs u) (hf : stepDeal y u = .ok (u', as)) :
    In (confOf y pc id i n rest) net k0 ph i 1 ms (qs ++ as.flatMap (asks (confOf y pc id i n rest))) u' ∧ Act.abandon ∉ as := by
  obtain ⟨e1, e2, e3⟩ := h.dat.init rfl
  obtain ⟨ds, d1, d2, d3⟩ := g.deals
  rw [stepDeal, e1, d1] at hf
  dsimp only at hf
  rw [Outcome.bind_eq_ok] at hf
  obtain ⟨as', h1, h2⟩ := hf
  have := Outcome.ok.inj h2
  injection this with e4 e5
  subst e4 e5
  have mem := sendDeals_mem ds h1
  have asked : ∀ q, q ∈ as'.flatMap (asks (confOf y pc id i n rest)) ↔
      ∃ b x, b < n ∧ b ≠ i ∧ dealToDto (net.deal i b) = .ok x ∧ q = ⟨i, pc, b, id, 1, .deal x⟩ := by
    intro q
    rw [List.mem_flatMap]
    constructor
    · rintro ⟨a, ha, hq⟩
      obtain ⟨p, hp, x, hx, rfl⟩ := (mem a).1 ha
      obtain ⟨b, hb, hbi, e, e'⟩ := (d2 p.1 p.2).1 hp
      rw [asks, List.mem_singleton] at hq
      rw [e'] at hx
      rw [e] at hq
      exact ⟨b, x, hb, hbi, hx, hq⟩
    · rintro ⟨b, x, hb, hbi, hx, rfl⟩
      refine ⟨.send b opDeal (.deal x), (mem _).2 ⟨(b, net.deal i b), (d2 _ _).2 ⟨b, hb, hbi, rfl, rfl⟩, x, hx, rfl⟩, ?_⟩
      rw [asks, List.mem_singleton]; rfl
  refine ⟨in_step (k := 1) h ?_ ?_ ?_ ?_, fun ha => ?_⟩
  · intro q hq _
    obtain ⟨b, x, _, _, _, rfl⟩ := (asked q).1 hq; rfl
  · intro q hq _ _ _
    obtain ⟨b, x, hb, hbi, hx, rfl⟩ := (asked q).1 hq
    exact ⟨.deal hi hb (Ne.symm hbi) hx, rfl⟩
  · intro q hsay hs ho _ _
    refine List.mem_append_right _ ((asked q).2 ?_)
    cases hsay with
    | @deal a b x ha hb hab hx =>
      have : a = i := Int.ofNat.inj hs
      subst this
      exact ⟨b, x, hb, Ne.symm hab, hx, rfl⟩
    | response => cases ho
    | commits => cases ho
  · refine ⟨fun h => by omega, fun h => by omega, fun _ _ => ⟨e2, e3, [], d3, ?_, fun j hj => absurd hj List.not_mem_nil⟩, fun h => by omega,
      fun h => by omega, fun h => by omega, fun h => by omega⟩
    intro j m hm _ _ ho
    have := h.low m hm
    omega
  · obtain ⟨p, _, x, _, e⟩ := (mem _).1 ha
    cases e

/-- The step that commits. -/
theorem step_commits (hi : net.on i) (hn : Proper net n) (g : Generates y net n i k0 ph) {ms qs : List (Message Dto)} {u u' : Data K} {as : List (Act Dto)}
    (h : In (confOf y pc id i n rest) net k0 ph i 4 ms qs u) (hf : stepCommits y u = .ok (u', as)) :
    (Act.abandon ∉ as → In (confOf y pc id i n rest) net k0 ph i 5 ms (qs ++ as.flatMap (asks (confOf y pc id i n rest))) u') ∧
    (Act.abandon ∈ as → Up (confOf y pc id i n rest) net 5 ms (qs ++ as.flatMap (asks (confOf y pc id i n rest)))) := by
  have good : Fine (confOf y pc id i n rest) net 3 ms → Full (confOf y pc id i n rest) net 2 ms →
      ∃ x q, commitsToDto (net.commits i) = .ok x ∧ u.out = [] ∧ Qualify net q ∧
      u' = { u with qual := some q, kyb := (y.secretCommits u.kyb).1 } ∧ as = [.multicast q opCommits (.commits x)] ∧ ph.committing [] u'.kyb := by
    intro hF hG
    obtain ⟨e1, ⟨q0, e2⟩, e3⟩ := h.dat.settle rfl hF hG
    obtain ⟨s1, s2, s3, s4⟩ := g.settled u.kyb e3
    obtain ⟨_, x, hx, _⟩ := hn.commits i hi
    rw [stepCommits, e2] at hf
    dsimp only at hf
    rw [s1, s3] at hf
    simp only [Bool.not_true, Bool.false_eq_true, if_false] at hf
    rw [Outcome.bind_eq_ok] at hf
    obtain ⟨as', h1, h2⟩ := hf
    have := Outcome.ok.inj h2
    injection this with e4 e5
    subst e4 e5
    rcases broadcastQual_cases h1 with ⟨q, dto, hq, hdto, e⟩ | ⟨he, _⟩
    · have : y.qual u.kyb = q := Option.some.inj hq
      subst this
      exact ⟨dto, _, hdto, e1, s2, rfl, e, s4⟩
    · rw [hx] at he; cases he
  have ops : ∀ q ∈ as.flatMap (asks (confOf y pc id i n rest)), q.op = 5 := by
    intro q hq
    have : as = [.abandon] ∨ ∃ sc u2, broadcastQual (K := K) u2 opCommits .commits commitsToDto sc = .ok as := by
      rw [stepCommits] at hf
      cases hq : u.qual with
      | none => rw [hq] at hf; cases hf
      | some q0 =>
        rw [hq] at hf
        dsimp only at hf
        by_cases hc : (!y.certified u.kyb) = true
        · rw [if_pos hc] at hf; have := Outcome.ok.inj hf; injection this with _ e; exact .inl e.symm
        · rw [if_neg hc] at hf
          cases hs : (y.secretCommits u.kyb).2 with
          | panic => rw [hs] at hf; cases hf
          | err => rw [hs] at hf; have := Outcome.ok.inj hf; injection this with _ e; exact .inl e.symm
          | ok sc =>
            rw [hs] at hf
            dsimp only at hf
            rw [Outcome.bind_eq_ok] at hf
            obtain ⟨as', h1, h2⟩ := hf
            have := Outcome.ok.inj h2
            injection this with _ e
            subst e
            exact .inr ⟨sc, _, h1⟩
    rcases this with rfl | ⟨sc, u2, hb⟩
    · cases hq
    · rcases broadcastQual_cases hb with ⟨q', dto, _, _, rfl⟩ | ⟨_, rfl⟩
      · obtain ⟨b, _, _, rfl⟩ := mem_multicast.1 hq; rfl
      · cases hq
  have snd : Sound (confOf y pc id i n rest) net ms (as.flatMap (asks (confOf y pc id i n rest))) := by
    intro q hq _ hF hG
    rw [ops q hq] at hF hG
    obtain ⟨x, q', hx, _, hall, _, rfl, _⟩ := good (fine_sub hF (by omega) fun _ hm _ => hm) (full_sub hG (by omega) fun _ hm _ => hm)
    obtain ⟨z, hz, hzi, rfl⟩ := mem_multicast.1 hq
    obtain ⟨b, hb, rfl⟩ := (hall.2 z).1 hz
    exact ⟨.commits hi hb (fun e => hzi (by rw [e])) hx, rfl⟩
  refine ⟨fun _ => in_step (k := 5) h (fun q hq _ => ops q hq) snd ?_ ?_, fun hab => up_step (k := 5) h (fun q hq _ => ops q hq) snd fun _ => ?_⟩
  · intro q hsay hs ho hF hG
    obtain ⟨x, q', hx, _, hall, _, rfl, _⟩ := good (fine_sub hF (by omega) fun _ hm _ => hm) (full_sub hG (by omega) fun _ hm _ => hm)
    refine List.mem_append_right _ (mem_multicast.2 ?_)
    cases hsay with
    | deal => cases ho
    | response => cases ho
    | @commits a b x' ha hb hab hx' =>
      have : i = a := (Int.ofNat.inj hs).symm
      subst this
      rw [hx] at hx'
      rw [← Outcome.ok.inj hx']
      exact ⟨b, (hall.2 b).2 ⟨b, hb, rfl⟩, fun e => hab (Int.ofNat.inj e).symm, rfl⟩
  · refine ⟨fun h => by omega, fun h => by omega, fun h => by omega, fun h => by omega, fun h => by omega, fun _ _ hF hG => ?_, fun h => by omega⟩
    obtain ⟨x, q', hx, e1, hall, rfl, _, hc⟩ := good (fine_sub hF (by omega) fun _ hm _ => hm) hG
    refine ⟨e1, ⟨q', rfl, hall⟩, [], hc, ?_⟩
    intro j m hm _ _ ho
    have := h.low m hm
    omega
  · rintro ⟨hF, hG⟩
    obtain ⟨x, q', _, _, _, _, rfl, _⟩ := good (fine_sub hF (by omega) fun _ hm _ => hm) (full_sub hG (by omega) fun _ hm _ => hm)
    simp at hab

/-- With all commitments processed. -/
theorem all_commits (hi : net.on i) (hn : Proper net n) {ms : List (Message Dto)} {js : List Nat} (hG : Full (confOf y pc id i n rest) net 5 ms)
    (hin : ∀ (j : Nat) m, m ∈ ms → Says net n pc id m → m.rcpt = (i : Int) → m.op = 5 → m.sender = j → j ∈ js) :
    ∀ j, net.on j → j ≠ i → j ∈ js := by
  intro j hj hji
  obtain ⟨_, x, hx, _⟩ := hn.commits j hj
  have hs : Says net n pc id ⟨j, pc, i, id, 5, .commits x⟩ := .commits hj hi hji hx
  exact hin j _ (hG _ hs rfl (by simp)) hs rfl rfl rfl

/-- The last step. -/
theorem step_final (hi : net.on i) (hn : Proper net n) (g : Generates y net n i k0 ph) {ms qs : List (Message Dto)} {u u' : Data K} {as : List (Act Dto)}
    (h : In (confOf y pc id i n rest) net k0 ph i 7 ms qs u) (hf : stepFinal y u = .ok (u', as)) :
    (Act.abandon ∉ as → In (confOf y pc id i n rest) net k0 ph i 8 ms (qs ++ as.flatMap (asks (confOf y pc id i n rest))) u') ∧
    (Act.abandon ∈ as → Up (confOf y pc id i n rest) net 8 ms (qs ++ as.flatMap (asks (confOf y pc id i n rest)))) := by
  have good : Fine (confOf y pc id i n rest) net 7 ms → Full (confOf y pc id i n rest) net 5 ms →
      ∃ q, Qualify net q ∧ u.qual = some q ∧ u' = { u with out := [.key (net.key i) q] } ∧ as = [] ∧
        ∃ js, ph.committing js u.kyb ∧ ∀ j, net.on j → j ≠ i → j ∈ js := by
    intro hF hG
    obtain ⟨e1, ⟨q, e2, hall⟩, js, hd, hin⟩ := h.dat.commit (by omega) (by omega) hF (full_sub hG (by omega) fun _ hm _ => hm)
    have hjs := all_commits hi hn hG hin
    obtain ⟨f1, f2, _⟩ := g.done js u.kyb hd hjs
    rw [stepFinal, if_pos f1, f2] at hf
    dsimp only at hf
    rw [e2] at hf
    have := Outcome.ok.inj hf
    injection this with e4 e5
    exact ⟨q, hall, e2, by rw [← e4, e1, e2]; rfl, e5.symm, js, hd, hjs⟩
  have nil : as.flatMap (asks (confOf y pc id i n rest)) = [] := by
    have : as = [.abandon] ∨ as = [] := by
      rw [stepFinal] at hf
      by_cases hc : y.finished u.kyb = true
      · rw [if_pos hc] at hf
        cases hs : y.distKeyShare u.kyb with
        | panic => rw [hs] at hf; cases hf
        | err => rw [hs] at hf; have := Outcome.ok.inj hf; injection this with _ e; exact .inl e.symm
        | ok sc =>
          rw [hs] at hf
          dsimp only at hf
          cases hq : u.qual with
          | none => rw [hq] at hf; cases hf
          | some q => rw [hq] at hf; have := Outcome.ok.inj hf; injection this with _ e; exact .inr e.symm
      · rw [if_neg hc] at hf; have := Outcome.ok.inj hf; injection this with _ e; exact .inl e.symm
    rcases this with rfl | rfl <;> rfl
  rw [nil]
  refine ⟨fun _ => in_step (k := 8) h (fun q hq => absurd hq List.not_mem_nil) sound_nil ?_ ?_,
    fun hab => up_step (k := 8) h (fun q hq => absurd hq List.not_mem_nil) sound_nil fun _ => ?_⟩
  · intro q hsay _ ho
    have := says_op hsay
    omega
  · refine ⟨fun h => by omega, fun h => by omega, fun h => by omega, fun h => by omega, fun h => by omega, fun h => by omega, fun _ hF hG => ?_⟩
    obtain ⟨q, hall, e2, rfl, _, js, hd, hjs⟩ := good hF hG
    exact ⟨q, [], e2, hall, rfl, fun _ => rfl, js, hd, hjs⟩
  · rintro ⟨hF, hG⟩
    obtain ⟨q, _, _, _, rfl, _⟩ := good hF (full_sub hG (by omega) fun _ hm _ => hm)
    simp at hab

theorem later_asks {c : Conf Dto Obj (Data K)} {as : List (Act Dto)} (h : ∀ a ∈ as, ActOk (fun op _ => 9 ≤ op) a) {q : Message Dto}
    (hq : q ∈ as.flatMap (asks c)) : 9 ≤ q.op := by
  obtain ⟨a, ha, hq⟩ := List.mem_flatMap.1 hq
  exact mem_asks (Q := fun op _ => 9 ≤ op) (h a ha) hq

/-- The generation, followed. -/
theorem generation_trail (hi : net.on i) (hn : Proper net n) (g : Generates y net n i k0 ph) (hl : Later rest) :
    Trail (confOf y pc id i n rest) (In (confOf y pc id i n rest) net k0 ph i) (Up (confOf y pc id i n rest) net) := by
  have none8 : ∀ (k : Int) (ms qs qs' : List (Message Dto)) (u : Data K), k ≠ 1 → k ≠ 2 → k ≠ 5 →
      ∀ q, Says net (confOf y pc id i n rest).members (confOf y pc id i n rest).pc (confOf y pc id i n rest).id q →
        q.sender = (confOf y pc id i n rest).self → q.op = k →
        Fine (confOf y pc id i n rest) net (k - 1) ms → Full (confOf y pc id i n rest) net (k - 1) ms → q ∈ qs ++ qs' := by
    intro k ms qs qs' u h1 h2 h5 q hsay _ ho
    have := says_op hsay
    omega
  refine ⟨?_, ?_, ?_, ?_⟩
  · intro k s ms qs u hs hst h
    have key : (∀ q, Says net (confOf y pc id i n rest).members (confOf y pc id i n rest).pc (confOf y pc id i n rest).id q →
        q.sender = (confOf y pc id i n rest).self → q.op = k →
        Fine (confOf y pc id i n rest) net (k - 1) ms → Full (confOf y pc id i n rest) net (k - 1) ms → q ∈ qs ++ []) →
        Dat (confOf y pc id i n rest) net k0 ph i k ms (qs ++ []) u → In (confOf y pc id i n rest) net k0 ph i k ms qs u := by
      intro h1 h2
      have := in_step (k := k) h (qs' := []) (fun q hq => absurd hq List.not_mem_nil) sound_nil h1 h2
      rwa [List.append_nil] at this
    rcases stage_cases hs with ⟨rfl, rfl⟩ | ⟨rfl, rfl⟩ | ⟨rfl, rfl⟩ | ⟨rfl, rfl⟩ | ⟨rfl, rfl⟩ | ⟨rfl, rfl⟩ | ⟨rfl, rfl⟩ | ⟨rfl, rfl⟩ | ⟨rfl, rfl⟩ | ⟨hk, hm⟩
    · cases hst
    · cases hst
    · have full1 : Full (confOf y pc id i n rest) net 1 ms → ∀ js : List Nat,
          (∀ (j : Nat) m, m ∈ ms → Says net n pc id m → m.rcpt = (i : Int) → m.op = 1 → m.sender = j → j ∈ js) → ∀ j, net.on j → j ≠ i → j ∈ js := by
        intro hG js hin j hj hji
        obtain ⟨_, x, hx, _⟩ := hn.deal j i hj (hn.on i hi) hji
        have hsy : Says net n pc id ⟨j, pc, i, id, 1, .deal x⟩ := .deal hj (hn.on i hi) hji hx
        exact hin j _ (hG _ hsy rfl (by simp)) hsy rfl rfl rfl
      refine key ?_ ?_
      · intro q hsay hse ho hF hG
        obtain ⟨_, _, js, hd, hin, hout⟩ := h.dat.deal rfl hF
        cases hsay with
        | deal => cases ho
        | @response v b d hv hb hd' hvb hdv =>
          have : v = i := Int.ofNat.inj hse
          subst this
          exact List.mem_append_left _ (hout d (full1 hG js hin d hd' hdv) b hb (Ne.symm hvb))
        | commits => cases ho
      · refine ⟨fun h => by omega, fun h => by omega, fun h => by omega, fun _ hF hG => ?_, fun h => by omega, fun h => by omega, fun h => by omega⟩
        obtain ⟨e1, e2, js, hd, hin, hout⟩ := h.dat.deal rfl (fine_sub hF (by omega) fun _ hm _ => hm)
        refine ⟨e1, e2, [], g.dealt js u.kyb hd (full1 hG js hin), ?_⟩
        intro d v _ _ _ _ hm
        have := h.low _ hm
        exact absurd this (by show ¬ (2 : Int) ≤ 2 - 1; omega)
    · refine key (none8 3 ms qs [] u (by omega) (by omega) (by omega)) ?_
      refine ⟨fun h => by omega, fun h => by omega, fun h => by omega, fun _ hF hG => ?_, fun h => by omega, fun h => by omega, fun h => by omega⟩
      exact h.dat.resp (.inl rfl) (fine_sub hF (by omega) fun _ hm _ => hm) hG
    · cases hst
    · cases hst
    · refine key (none8 6 ms qs [] u (by omega) (by omega) (by omega)) ?_
      refine ⟨fun h => by omega, fun h => by omega, fun h => by omega, fun h => by omega, fun h => by omega, fun _ _ hF hG => ?_, fun h => by omega⟩
      exact h.dat.commit (by omega) (by omega) (fine_sub hF (by omega) fun _ hm _ => hm) hG
    · refine key (none8 7 ms qs [] u (by omega) (by omega) (by omega)) ?_
      refine ⟨fun h => by omega, fun h => by omega, fun h => by omega, fun h => by omega, fun h => by omega, fun _ _ hF hG => ?_, fun h => by omega⟩
      exact h.dat.commit (by omega) (by omega) (fine_sub hF (by omega) fun _ hm _ => hm) hG
    · cases hst
    · refine key (none8 k ms qs [] u (by omega) (by omega) (by omega)) ?_
      refine ⟨fun h => by omega, fun h => by omega, fun h => by omega, fun h => by omega, fun h => by omega, fun h => by omega, fun _ hF hG => ?_⟩
      obtain ⟨q, o, e1, e2, e3, _, e4⟩ := h.dat.final (by omega) hF hG
      exact ⟨q, o, e1, e2, e3, fun h => by omega, e4⟩
  · intro k s f ms qs u u' as hs hst h hf
    rcases stage_cases hs with ⟨rfl, rfl⟩ | ⟨rfl, rfl⟩ | ⟨rfl, rfl⟩ | ⟨rfl, rfl⟩ | ⟨rfl, rfl⟩ | ⟨rfl, rfl⟩ | ⟨rfl, rfl⟩ | ⟨rfl, rfl⟩ | ⟨rfl, rfl⟩ | ⟨hk, hm⟩
    · have e := Option.some.inj hst
      subst e
      have := Outcome.ok.inj hf
      injection this with e1 e2
      subst e1 e2
      refine ⟨fun _ => in_step (k := 0) h (fun q hq => absurd hq List.not_mem_nil) sound_nil (none8 0 ms qs _ u (by omega) (by omega) (by omega)) ?_,
        fun hab => absurd hab List.not_mem_nil⟩
      obtain ⟨g1, g2⟩ := h.dat.start rfl
      exact ⟨fun h => by omega, fun _ => ⟨g1, g2, _, rfl⟩, fun h => by omega, fun h => by omega, fun h => by omega, fun h => by omega, fun h => by omega⟩
    · have e := Option.some.inj hst
      subst e
      obtain ⟨g1, g2⟩ := step_deal hi g h hf
      exact ⟨fun _ => g1, fun hab => absurd hab g2⟩
    · cases hst
    · cases hst
    · have e := Option.some.inj hst
      subst e
      have := Outcome.ok.inj hf
      injection this with e1 e2
      subst e1 e2
      refine ⟨fun _ => in_step (k := 4) h (fun q hq => absurd hq List.not_mem_nil) sound_nil (none8 4 ms qs _ u (by omega) (by omega) (by omega)) ?_,
        fun hab => absurd hab List.not_mem_nil⟩
      refine ⟨fun h => by omega, fun h => by omega, fun h => by omega, fun h => by omega, fun _ hF hG => ?_, fun h => by omega, fun h => by omega⟩
      obtain ⟨g1, g2, ps, hd, hin⟩ := h.dat.resp (.inr rfl) hF (full_sub hG (by omega) fun _ hm _ => hm)
      refine ⟨g1, g2, g.responded ps u.kyb hd fun d v hd hv hvi hdv => hin d v hd hv hvi hdv ?_⟩
      exact hG _ (.response hv (hn.on i hi) hd hvi hdv) rfl (le_refl _)
    · have e := Option.some.inj hst
      subst e
      exact step_commits hi hn g h hf
    · cases hst
    · cases hst
    · have e := Option.some.inj hst
      subst e
      exact step_final hi hn g h hf
    · obtain ⟨e1, e2, ⟨o', e3⟩, e4⟩ := hl.step s hm f hst u u' as hf
      have big := fun q hq => later_asks (c := confOf y pc id i n rest) e4 (q := q) hq
      have ops : ∀ q ∈ as.flatMap (asks (confOf y pc id i n rest)), q.op ≤ 8 → q.op = k := fun q hq h8 => by have := big q hq; omega
      have snd : Sound (confOf y pc id i n rest) net ms (as.flatMap (asks (confOf y pc id i n rest))) :=
        fun q hq h8 => by have := big q hq; omega
      refine ⟨fun _ => in_step (k := k) h ops snd (none8 k ms qs _ u (by omega) (by omega) (by omega)) ?_, fun _ => up_step (k := k) h ops snd fun h => by omega⟩
      refine ⟨fun h => by omega, fun h => by omega, fun h => by omega, fun h => by omega, fun h => by omega, fun h => by omega, fun _ hF hG => ?_⟩
      obtain ⟨q, o, g1, g2, g3, _, g4⟩ := h.dat.final (by omega) hF hG
      exact ⟨q, o ++ o', by rw [e2]; exact g1, g2, by rw [e3, g3]; rfl, fun h => by omega, by rw [e1]; exact g4⟩
  · intro m ms qs u h hno
    have hsays : ¬ (Says net n pc id m ∧ m.rcpt = (i : Int)) := fun ⟨h1, h2⟩ => hno (says_accepted hn h1 h2)
    have fullm : ∀ k : Int, Full (confOf y pc id i n rest) net k (ms ++ [m]) → Full (confOf y pc id i n rest) net k ms := by
      intro k hG m' h1 h2 h3
      rcases List.mem_append.1 (hG m' h1 h2 h3) with h' | h'
      · exact h'
      · rw [List.mem_singleton] at h'
        subst h'
        exact absurd ⟨h1, h2⟩ hsays
    have := in_proc (m := m) (qs' := []) (u' := u) h rfl (fun q hq => absurd hq List.not_mem_nil) sound_nil ?_
    · rwa [List.append_nil] at this
    rw [List.append_nil]
    refine ⟨h.dat.start, h.dat.init, fun hk hF => ?_, fun hk hF hG => ?_, fun hk hF hG => ?_, fun h5 h7 hF hG => ?_, fun h8 hF hG => ?_⟩
    · obtain ⟨e1, e2, js, hd, hin, hout⟩ := h.dat.deal hk (fine_init hF (le_refl _))
      refine ⟨e1, e2, js, hd, ?_, hout⟩
      intro j m' hm' hs hr ho hse
      rcases List.mem_append.1 hm' with hm' | hm'
      · exact hin j m' hm' hs hr ho hse
      · rw [List.mem_singleton] at hm'; subst hm'; exact absurd ⟨hs, hr⟩ hsays
    · obtain ⟨e1, e2, ps, hd, hin⟩ := h.dat.resp hk (fine_init hF (le_refl _)) (fullm _ hG)
      refine ⟨e1, e2, ps, hd, ?_⟩
      intro d v hd hv hvi hdv hm'
      rcases List.mem_append.1 hm' with hm' | hm'
      · exact hin d v hd hv hvi hdv hm'
      · rw [List.mem_singleton] at hm'
        refine absurd ⟨?_, ?_⟩ hsays
        · rw [← hm']; exact .response hv (hn.on i hi) hd hvi hdv
        · rw [← hm']
    · exact h.dat.settle hk (fine_init hF (le_refl _)) (fullm _ hG)
    · obtain ⟨e1, e2, js, hd, hin⟩ := h.dat.commit h5 h7 (fine_init hF (le_refl _)) (fullm _ hG)
      refine ⟨e1, e2, js, hd, ?_⟩
      intro j m' hm' hs hr ho hse
      rcases List.mem_append.1 hm' with hm' | hm'
      · exact hin j m' hm' hs hr ho hse
      · rw [List.mem_singleton] at hm'; subst hm'; exact absurd ⟨hs, hr⟩ hsays
    · exact h.dat.final h8 (fine_init hF (le_refl _)) (fullm _ hG)
  · intro s f m a ms qs u u' as hs hpr ha h hf
    have hu := accepted_obj hs ha
    rcases stage_cases hs with ⟨hk, rfl⟩ | ⟨hk, rfl⟩ | ⟨hk, rfl⟩ | ⟨hk, rfl⟩ | ⟨hk, rfl⟩ | ⟨hk, rfl⟩ | ⟨hk, rfl⟩ | ⟨hk, rfl⟩ | ⟨hk, rfl⟩ | ⟨hk, hm⟩
    · cases hpr
    · have e := Option.some.inj hpr
      subst e
      rw [hk] at h ⊢
      obtain ⟨g1, g2⟩ := proc_deal hi hn g hk ha hu h hf
      exact ⟨fun _ => g1, fun hab => absurd hab g2⟩
    · have e := Option.some.inj hpr
      subst e
      rw [hk] at h ⊢
      obtain ⟨g1, g2⟩ := proc_response hn g hk ha hu h hf
      exact ⟨fun _ => g1, fun hab => absurd hab g2⟩
    · have e := Option.some.inj hpr
      subst e
      have := processJustification_acts hf
      subst this
      exact ⟨fun _ => proc_other (.inl hk) ha h (fun q hq => absurd hq List.not_mem_nil), fun hab => absurd hab List.not_mem_nil⟩
    · cases hpr
    · have e := Option.some.inj hpr
      subst e
      rw [hk] at h ⊢
      obtain ⟨g1, g2⟩ := proc_commits hn g hk ha hu h hf
      exact ⟨fun _ => g1, fun hab => absurd hab g2⟩
    · have e := Option.some.inj hpr
      subst e
      have hc := processComplCommits_acts hf
      refine ⟨fun _ => proc_other (.inr (.inl hk)) ha h ?_, fun hab => absurd hab ?_⟩
      · intro q hq
        rcases hc with ⟨q', x, rfl⟩ | rfl
        · obtain ⟨b, _, _, rfl⟩ := mem_multicast.1 hq
          rw [hk]; rfl
        · cases hq
      · rcases hc with ⟨q', x, rfl⟩ | rfl <;> simp
    · have e := Option.some.inj hpr
      subst e
      have := processReconsCommits_acts hf
      subst this
      exact ⟨fun _ => proc_other (.inr (.inr hk)) ha h (fun q hq => absurd hq List.not_mem_nil), fun hab => absurd hab List.not_mem_nil⟩
    · cases hpr
    · obtain ⟨e1, e2, ⟨o', e3⟩, e4⟩ := hl.proc s hm f hpr u a u' as hf
      have big := fun q hq => later_asks (c := confOf y pc id i n rest) e4 (q := q) hq
      have ops : ∀ q ∈ as.flatMap (asks (confOf y pc id i n rest)), q.op ≤ 8 → q.op = m.op + 1 := fun q hq h8 => by have := big q hq; omega
      have snd : Sound (confOf y pc id i n rest) net (ms ++ [m]) (as.flatMap (asks (confOf y pc id i n rest))) :=
        fun q hq h8 => by have := big q hq; omega
      have hin : In (confOf y pc id i n rest) net k0 ph i m.op (ms ++ [m]) (qs ++ as.flatMap (asks (confOf y pc id i n rest))) u' := by
        refine in_proc h rfl ops snd ?_
        refine ⟨fun h => by omega, fun h => by omega, fun h => by omega, fun h => by omega, fun h => by omega, fun h => by omega, fun _ hF hG => ?_⟩
        obtain ⟨q, o, g1, g2, g3, _, g4⟩ := h.dat.final (by omega) (fine_init hF (le_refl _)) (full_init hG (le_refl _) (by omega))
        exact ⟨q, o ++ o', by rw [e2]; exact g1, g2, by rw [e3, g3]; rfl, fun h => by omega, by rw [e1]; exact g4⟩
      refine ⟨fun _ => hin, fun _ => ⟨fun h => by omega, fun q hq h8 => by omega, hin.sound, ?_, fun h => by omega⟩⟩
      exact fun q h1 h2 h3 h4 h5 => hin.complete q h1 h2 (by omega) h4 h5

theorem mem_handled {l : List (Entry Dto Obj)} {m : Message Dto} : m ∈ handledAll l ↔ .handled m ∈ l := by
  rw [handledAll, List.mem_filterMap]
  constructor
  · rintro ⟨x, hx, h⟩
    cases x with
    | handled m' => dsimp only at h; rw [← Option.some.inj h]; exact hx
    | _ => cases h
  · exact fun h => ⟨_, h, rfl⟩

theorem fine_of {c : Conf Dto Obj (Data K)} {k : Int} {l : List (Entry Dto Obj)} (h : Honestly c net k l) : Fine c net k (handledAll l) :=
  fun m hm => h m (mem_handled.1 hm)

theorem full_of {c : Conf Dto Obj (Data K)} {k : Int} {l : List (Entry Dto Obj)} (h : Heard c net k l) : Full c net k (handledAll l) :=
  fun m h1 h2 h3 => mem_handled.2 (h m h1 h2 h3)

theorem gave_split {D A : Type} {l : List (Entry D A)} (h : gaveUp l = true) : ∃ l1 l2, l = l1 ++ .abandoned :: l2 := by
  rw [gaveUp, List.any_eq_true] at h
  obtain ⟨x, hx, hx2⟩ := h
  cases x with
  | abandoned => exact List.append_of_mem hx
  | _ => cases hx2

/-- The first of several places. -/
theorem first_split {T : Type} {a : T} {l1 l2 l3 l4 : List T} (e : l1 ++ a :: l2 = l3 ++ a :: l4) (h : a ∉ l1) : ∃ x, l3 = l1 ++ x := by
  rcases List.append_eq_append_iff.1 e with ⟨x, e1, _⟩ | ⟨x, e1, e2⟩
  · exact ⟨x, e1⟩
  · cases x with
    | nil => exact ⟨[], by rw [e1]; simp⟩
    | cons b x => rw [List.cons_append] at e2; injection e2 with e2 _; subst e2; exact absurd (by rw [e1]; simp) h

/-- Stages only go up. -/
theorem stage_mono {c : Conf Dto Obj (Data K)} {l1 l2 : List (Entry Dto Obj)} (h : Legal c (l1 ++ l2)) : stageOf l1 ≤ stageOf (l1 ++ l2) := by
  induction l2 using List.reverseRecOn with
  | nil => rw [List.append_nil]
  | append_singleton l2 x ih =>
    rw [← List.append_assoc, legal_snoc] at h
    have := ih h.1
    rw [← List.append_assoc, stageOf_snoc]
    cases x with
    | entered k => have h2 := h.2.1; dsimp only; omega
    | _ => exact this

/-- What is handled after a point has at least the op code of the stage there. -/
theorem handled_after {c : Conf Dto Obj (Data K)} {l1 l2 : List (Entry Dto Obj)} (h : Legal c (l1 ++ l2)) {m : Message Dto}
    (hm : .handled m ∈ l1 ++ l2) (ho : m.op < stageOf l1) : .handled m ∈ l1 := by
  rcases List.mem_append.1 hm with hm | hm
  · exact hm
  · obtain ⟨a, b, rfl⟩ := List.append_of_mem hm
    have h1 := (h (l1 ++ a) (.handled m) b (by simp)).1
    have h2 : Legal c (l1 ++ a) := by
      intro p x q e
      exact h p x (q ++ .handled m :: b) (by rw [← List.append_assoc, e]; simp)
    have := stage_mono h2
    omega

section
variable (hi : net.on i) (hn : Proper net n) (g : Generates y net n i k0 ph) (hl : Later rest) {t0 : Int} {h : List (Ev Dto)} {r : Run Dto Obj (Data K)}
  (hr : exec (confOf y pc id i n rest) (newRun Dto Obj (newData k0) t0) h = .ok r)
include hi hn g hl hr

theorem generation_trailed : Trailed (In (confOf y pc id i n rest) net k0 ph i) (Up (confOf y pc id i n rest) net) r := by
  refine trail_exec (generation_trail hi hn g hl) (u := newData k0) ?_ hr
  refine ⟨fun m hm => absurd hm List.not_mem_nil, fun m hm => absurd hm List.not_mem_nil, sound_nil, ?_, ?_⟩
  · intro q hs _ ho
    have := says_op hs
    omega
  · exact ⟨fun _ => ⟨rfl, rfl⟩, fun h => by omega, fun h => by omega, fun h => by omega, fun h => by omega, fun h => by omega, fun h => by omega⟩

omit hi hn g hl in
/-- Giving up during the generation means that something was missing. -/
theorem why_up {l1 l2 : List (Entry Dto Obj)} {qs : List (Message Dto)} (e : r.log = l1 ++ .abandoned :: l2) {k : Int}
    (hu : Up (confOf y pc id i n rest) net (stageOf l1) (handledAll l1) qs) (h8 : stageOf l1 ≤ 8) (hk : stageOf l1 - 1 ≤ k)
    (hF : Honestly (confOf y pc id i n rest) net k r.log) (hG : Heard (confOf y pc id i n rest) net k r.log) : False := by
  have a := agree_exec hr
  have legal : Legal (confOf y pc id i n rest) (l1 ++ .abandoned :: l2) := e ▸ a.inv.core.legal
  refine hu.why h8 ⟨fine_sub (fine_of hF) hk fun m hm _ => ?_, full_sub (full_of hG) hk fun m hm ho => ?_⟩
  · rw [mem_handled] at hm ⊢; rw [e]; exact List.mem_append_left _ hm
  · rw [mem_handled] at hm ⊢
    rw [e] at hm
    exact handled_after legal hm (by omega)

theorem says_only {m : Message Dto} (hm : .request m ∈ r.log) (h8 : m.op ≤ 8) (hF : Honestly (confOf y pc id i n rest) net (m.op - 1) r.log)
    (hG : Heard (confOf y pc id i n rest) net (m.op - 2) r.log) : Says net n pc id m ∧ m.sender = (i : Int) := by
  have f := generation_trailed hi hn g hl hr
  have a := agree_exec hr
  cases hab : r.abandon with
  | false => exact (f.data hab).sound m (mem_askedAll.2 hm) h8 (fine_of hF) (full_of hG)
  | true =>
    obtain ⟨l1, l2, e, _, hu⟩ := f.gave hab
    have legal : Legal (confOf y pc id i n rest) (l1 ++ .abandoned :: l2) := e ▸ a.inv.core.legal
    have := hu.reqs m (mem_askedAll.2 hm) h8
    refine hu.sound m (mem_askedAll.2 hm) h8 (fine_sub (fine_of hF) (le_refl _) fun m' hm' _ => ?_) (full_sub (full_of hG) (le_refl _) fun m' hm' ho => ?_)
    · rw [mem_handled] at hm' ⊢; rw [e]; exact List.mem_append_left _ hm'
    · rw [mem_handled] at hm' ⊢
      rw [e] at hm'
      exact handled_after legal hm' (by omega)

theorem says_all {m : Message Dto} (hs : Says net n pc id m) (hse : m.sender = (i : Int)) (hst : m.op ≤ r.state)
    (hF : Honestly (confOf y pc id i n rest) net (m.op - 1) r.log) (hG : Heard (confOf y pc id i n rest) net (m.op - 1) r.log) :
    .sent m ∈ r.log := by
  have f := generation_trailed hi hn g hl hr
  have a := agree_exec hr
  have req : .request m ∈ r.log := by
    cases hab : r.abandon with
    | false => exact mem_askedAll.1 ((f.data hab).complete m hs hse hst (fine_of hF) (full_of hG))
    | true =>
      obtain ⟨l1, l2, e, _, hu⟩ := f.gave hab
      have legal : Legal (confOf y pc id i n rest) (l1 ++ .abandoned :: l2) := e ▸ a.inv.core.legal
      by_cases hk : m.op < stageOf l1
      · refine mem_askedAll.1 (hu.complete m hs hse (by omega) (fine_sub (fine_of hF) (le_refl _) fun m' hm' _ => ?_)
          (full_sub (full_of hG) (le_refl _) fun m' hm' ho => ?_))
        · rw [mem_handled] at hm' ⊢; rw [e]; exact List.mem_append_left _ hm'
        · rw [mem_handled] at hm' ⊢
          rw [e] at hm'
          exact handled_after legal hm' (by omega)
      · have := says_op hs
        exact (why_up hr e hu (by omega) (by omega) hF hG).elim
  have h1 := a.inv.core.sent m.op
  rw [if_pos hst] at h1
  have h2 : m ∈ requestsOf m.op r.log := by
    rw [requestsOf, List.mem_filterMap]
    exact ⟨_, req, by simp⟩
  rw [← h1, sentOf, List.mem_filterMap] at h2
  obtain ⟨x, hx, h2⟩ := h2
  cases x with
  | sent m' =>
    dsimp only at h2
    by_cases ho : m'.op = m.op
    · rw [if_pos ho] at h2; rw [← Option.some.inj h2]; exact hx
    · rw [if_neg ho] at h2; cases h2
  | _ => cases h2

theorem gets_key (hF : Honestly (confOf y pc id i n rest) net 7 r.log) (hG : Heard (confOf y pc id i n rest) net 7 r.log) :
    (∀ l1 l2, r.log = l1 ++ .abandoned :: l2 → 9 ≤ stageOf l1) ∧
    (r.abandon = false → 8 ≤ r.state → ∃ q o, r.user.qual = some q ∧ Qualify net q ∧
      r.user.out = .key (net.key i) q :: o ∧ (r.state = 8 → o = []) ∧ y.distKeyShare r.user.kyb = .ok (net.key i) ∧
      Qualify net (y.qual r.user.kyb)) := by
  have f := generation_trailed hi hn g hl hr
  refine ⟨fun l3 l4 e' => ?_, fun hab h8 => ?_⟩
  · have hab : r.abandon = true := by
      by_contra hc
      exact f.none (by simpa using hc) (by rw [e']; simp)
    obtain ⟨l1, l2, e, hno, hu⟩ := f.gave hab
    obtain ⟨x, rfl⟩ := first_split (e.symm.trans e') hno
    have h9 : 9 ≤ stageOf l1 := by
      by_contra hc
      exact why_up hr e hu (by omega) (by omega) hF hG
    have legal : Legal (confOf y pc id i n rest) ((l1 ++ x) ++ .abandoned :: l4) := e' ▸ (agree_exec hr).inv.core.legal
    have := stage_mono (c := confOf y pc id i n rest) (l1 := l1) (l2 := x) fun p z q e2 => legal p z (q ++ .abandoned :: l4) (by rw [e2]; simp)
    omega
  · have hG5 : Heard (confOf y pc id i n rest) net 5 r.log := fun m h1 h2 h3 => hG m h1 h2 (by omega)
    obtain ⟨q, o, e1, e2, e3, e4, js, hd, hjs⟩ := (f.data hab).dat.final h8 (fine_of hF) (full_of hG5)
    exact ⟨q, o, e1, e2, e3, e4, (g.done js _ hd hjs).2⟩

end

end

theorem later_nil : Later (K := K) [] := ⟨fun _ h => absurd h List.not_mem_nil, fun _ h => absurd h List.not_mem_nil⟩

theorem later_dss (y : Kyb K) (H : List UInt8 → List UInt8) (SH : Share → List UInt8) (env : Env) :
    Later (K := K) [psStep (stInit y H env), psProc (some (stPartsig H SH env)) (prPartsig H SH) .partsig partsigV, psStep (dssStFinal H)] := by
  have abandons : ∀ a ∈ ([.abandon] : List (Act Dto)), ActOk (fun op _ => 9 ≤ op) a := by
    intro a ha; rw [List.mem_singleton] at ha; subst ha; exact trivial
  have nothing : ∀ a ∈ ([] : List (Act Dto)), ActOk (fun op _ => 9 ≤ op) a := fun a ha => absurd ha List.not_mem_nil
  refine ⟨?_, ?_⟩
  · intro s hs f hf u u' as h
    simp only [List.mem_cons, List.not_mem_nil, or_false] at hs
    rcases hs with rfl | rfl | rfl
    · have e := Option.some.inj hf
      subst e
      rw [stInit] at h
      cases hd : y.distKeyShare u.kyb with
      | panic => rw [hd] at h; cases h
      | err => rw [hd] at h; have := Outcome.ok.inj h; injection this with e1 e2; subst e1 e2; exact ⟨rfl, rfl, ⟨[], (List.append_nil _).symm⟩, abandons⟩
      | ok random =>
        rw [hd] at h
        dsimp only at h
        cases hl : env.long with
        | none => rw [hl] at h; cases h
        | some long =>
        cases hdoc : env.doc with
        | none => rw [hl, hdoc] at h; cases h
        | some doc =>
        rw [hl, hdoc] at h
        dsimp only at h
        cases hn : newDSS H ⟨env.secret, env.participants, long, random, y.qual u.kyb, doc, env.threshold⟩ with
        | panic => rw [hn] at h; cases h
        | err => rw [hn] at h; have := Outcome.ok.inj h; injection this with e1 e2; subst e1 e2; exact ⟨rfl, rfl, ⟨[], (List.append_nil _).symm⟩, abandons⟩
        | ok d => rw [hn] at h; have := Outcome.ok.inj h; injection this with e1 e2; subst e1 e2; exact ⟨rfl, rfl, ⟨[], (List.append_nil _).symm⟩, nothing⟩
    · have e := Option.some.inj hf
      subst e
      rw [stPartsig.eq_def] at h
      cases hd : u.dss with
      | none => rw [hd] at h; cases h
      | some d =>
        rw [hd] at h
        dsimp only at h
        cases hp : (partialSig H SH env.nonce d).2 with
        | panic => rw [hp] at h; cases h
        | err => rw [hp] at h; have := Outcome.ok.inj h; injection this with e1 e2; subst e1 e2; exact ⟨rfl, rfl, ⟨[], (List.append_nil _).symm⟩, abandons⟩
        | ok sig =>
          rw [hp] at h
          dsimp only at h
          rw [Outcome.bind_eq_ok] at h
          obtain ⟨as', h1, h2⟩ := h
          have := Outcome.ok.inj h2
          injection this with e1 e2
          subst e1 e2
          refine ⟨rfl, rfl, ⟨[], (List.append_nil _).symm⟩, ?_⟩
          rcases broadcastQual_cases h1 with ⟨q, x, _, _, rfl⟩ | ⟨_, rfl⟩
          · intro a ha; rw [List.mem_singleton] at ha; subst ha; show (9 : Int) ≤ opDssPartsig; decide
          · exact nothing
    · have e := Option.some.inj hf
      subst e
      rw [dssStFinal] at h
      cases hd : u.dss with
      | none => rw [hd] at h; cases h
      | some d =>
        rw [hd] at h
        dsimp only at h
        by_cases he : (!enoughPartialSig d) = true
        · rw [if_pos he] at h; have := Outcome.ok.inj h; injection this with e1 e2; subst e1 e2; exact ⟨rfl, rfl, ⟨[], (List.append_nil _).symm⟩, abandons⟩
        · rw [if_neg he] at h
          cases hs : signature H d with
          | panic => rw [hs] at h; cases h
          | err => rw [hs] at h; have := Outcome.ok.inj h; injection this with e1 e2; subst e1 e2; exact ⟨rfl, rfl, ⟨[], (List.append_nil _).symm⟩, abandons⟩
          | ok sg => rw [hs] at h; have := Outcome.ok.inj h; injection this with e1 e2; subst e1 e2; exact ⟨rfl, rfl, ⟨_, rfl⟩, nothing⟩
  · intro s hs f hf u a u' as h
    simp only [List.mem_cons, List.not_mem_nil, or_false] at hs
    rcases hs with rfl | rfl | rfl
    · cases hf
    · have e := Option.some.inj hf
      subst e
      cases a with
      | partsig ps =>
        rw [prPartsig] at h
        cases hd : u.dss with
        | none => rw [hd] at h; cases h
        | some d =>
          rw [hd] at h
          dsimp only at h
          cases hp : (processPartialSig H SH d ps).2 with
          | panic => rw [hp] at h; cases h
          | err => rw [hp] at h; have := Outcome.ok.inj h; injection this with e1 e2; subst e1 e2; exact ⟨rfl, rfl, ⟨[], (List.append_nil _).symm⟩, nothing⟩
          | ok x => rw [hp] at h; have := Outcome.ok.inj h; injection this with e1 e2; subst e1 e2; exact ⟨rfl, rfl, ⟨[], (List.append_nil _).symm⟩, nothing⟩
      | _ => cases h
    · cases hf

end Verif.Generation
