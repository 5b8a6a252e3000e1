import Verif.Proofs.Pin

/-!
Property C99: a key generation among honest members. Kyber's generator is external; what is expected of it when it is given
what the generators of honest members made is in Spec/Generation.lean.
-/
namespace Verif.Props.Generation
open Verif.Prot Verif.Spec.Prot Verif.Spec.Generation Verif.Dkg Verif.Dto Verif.Dss Verif.Generation
variable {K : Type}

theorem runs_conf {c : Conf Dto Obj (Data K)} {y : Kyb K} {id : String} {i n : Nat} (h : Runs c y id i n) :
    ∃ pc rest, c = confOf y pc id i n rest ∧ Later rest ∧ (rest = [] ∨ pc = 1) := by
  rcases h with rfl | ⟨H, SH, env, rfl⟩
  · exact ⟨0, [], rfl, later_nil, .inl rfl⟩
  · exact ⟨1, _, rfl, later_dss y H SH env, .inr rfl⟩

section
variable {c : Conf Dto Obj (Data K)} {y : Kyb K} {id : String} {i n : Nat} {net : Net} {k0 : K} {ph : Phases K} (hi : net.on i) (hn : Proper net n)
  (g : Generates y net n i k0 ph) (hc : Runs c y id i n) {t0 : Int} {h : List (Ev Dto)} {r : Run Dto Obj (Data K)}
  (hr : exec c (newRun Dto Obj (newData k0) t0) h = .ok r)
include hi hn g hc hr

/-- C99 (nothing else). In a key generation, or in the generation that begins a signing run, a member to whom the others said
nothing but what honest members say sends nothing else itself. What it sends in one stage depends only on what was said in the
stages before: that everything accepted from them was honest, and that nothing from the last but one was missing. -/
theorem C99_only (m : Message Dto) (hm : .request m ∈ r.log) (h8 : m.op ≤ 8) (hF : Honestly c net (m.op - 1) r.log)
    (hG : Heard c net (m.op - 2) r.log) : Says net n c.pc id m ∧ m.sender = (i : Int) := by
  obtain ⟨pc, rest, rfl, hl, _⟩ := runs_conf hc
  exact says_only hi hn g hl hr hm h8 hF hG

/-- C99 (everything). A member that was told everything that honest members say in the stages before says everything that is
its part in the present one. -/
theorem C99_sends (m : Message Dto) (hs : Says net n c.pc id m) (hse : m.sender = (i : Int)) (hst : m.op ≤ stageOf r.log)
    (hF : Honestly c net (m.op - 1) r.log) (hG : Heard c net (m.op - 1) r.log) : .sent m ∈ r.log := by
  obtain ⟨pc, rest, rfl, hl, _⟩ := runs_conf hc
  exact says_all hi hn g hl hr hs hse ((agree_exec hr).inv.core.stage ▸ hst) hF hG

/-- C99 (key). A member that was told everything does not give up in the generation. From its last stage on it has put out its
share of the key, first, with the members that take part as those that qualify, and its generator gives this share; this holds whatever comes after the
generation in a signing run. -/
theorem C99_key (hF : Honestly c net 7 r.log) (hG : Heard c net 7 r.log) :
    (∀ l1 l2, r.log = l1 ++ .abandoned :: l2 → c.pc = 1 ∧ 9 ≤ stageOf l1) ∧
    (8 ≤ stageOf r.log →
      ∃ q o, r.user.qual = some q ∧ Qualify net q ∧ r.user.out = .key (net.key i) q :: o ∧ (c.pc ≠ 1 → o = []) ∧
        y.distKeyShare r.user.kyb = .ok (net.key i) ∧ Qualify net (y.qual r.user.kyb)) := by
  obtain ⟨pc, rest, hcf, hl, hrest⟩ := runs_conf hc
  have hr' := hr
  have hF' := hF
  have hG' := hG
  rw [hcf] at hr' hF' hG'
  have a := agree_exec hr'
  have hlen : stageOf r.log + 1 ≤ (confOf y pc id i n rest).stages.length := by
    rw [a.inv.core.stage]
    cases hp : r.phase with
    | fresh => have := (a.inv.fresh (.inl hp)).1; omega
    | started => have := (a.inv.fresh (.inr hp)).1; omega
    | staged => have := (a.inv.staged hp).2.1; omega
    | pausing => have := (a.inv.pausing hp).2.1; omega
    | done => have := (a.inv.done hp).1; omega
  have hnil : rest = [] → stageOf r.log ≤ 8 := by
    rintro rfl
    have : ((confOf y pc id i n []).stages.length : Int) = 9 := rfl
    omega
  have hpc : c.pc = pc := by rw [hcf]; rfl
  rw [hpc]
  rw [a.inv.core.stage] at hnil ⊢
  obtain ⟨h1, h2⟩ := gets_key hi hn g hl hr' hF' hG'
  have h1' : ∀ l1 l2, r.log = l1 ++ .abandoned :: l2 → pc = 1 ∧ 9 ≤ stageOf l1 := by
    intro l1 l2 e
    have h9 := h1 l1 l2 e
    refine ⟨?_, h9⟩
    rcases hrest with hrest | hrest
    · have := stage_mono (l1 := l1) (l2 := .abandoned :: l2) (c := confOf y pc id i n rest) (e ▸ a.inv.core.legal)
      rw [← e, a.inv.core.stage] at this
      have := hnil hrest
      omega
    · exact hrest
  refine ⟨h1', fun h8 => ?_⟩
  rcases hc with hc | ⟨H, SH, env, rfl⟩
  · have hab : r.abandon = false := by
      by_contra hc'
      obtain ⟨l1, l2, e⟩ := gave_split (a.inv.core.gave.trans (by simpa using hc'))
      have := (h1' l1 l2 e).1
      rw [← hpc, hc] at this
      cases this
    obtain ⟨q, o, e1, e2, e3, e4, d⟩ := h2 hab h8
    refine ⟨q, o, e1, e2, e3, fun hpc => e4 ?_, d⟩
    rcases hrest with hrest | hrest
    · have := hnil hrest; omega
    · exact absurd hrest hpc
  · obtain ⟨_, q, o, e1, e2, e3, d⟩ := key_end hi hn g hr hF hG h8
    exact ⟨q, o, e1, e2, e3, fun h => absurd hpc.symm h, d⟩

end

/-- The runs of those of `n` members that take part, one for each: the protocol, the generator with its first state and what is expected of it, and
the history. -/
structure Group (K : Type) (n : Nat) (id : String) (pc : Int) (net : Net) where
  c : Nat → Conf Dto Obj (Data K)
  y : Nat → Kyb K
  k0 : Nat → K
  ph : Nat → Phases K
  t0 : Nat → Int
  h : Nat → List (Ev Dto)
  r : Nat → Run Dto Obj (Data K)
  conf : ∀ i, net.on i → Runs (c i) (y i) id i n ∧ (c i).pc = pc
  gen : ∀ i, net.on i → Generates (y i) net n i (k0 i) (ph i)
  run : ∀ i, net.on i → exec (c i) (newRun Dto Obj (newData (k0 i)) (t0 i)) (h i) = .ok (r i)

/-- What a member accepts in the generation was sent by a member, to it. -/
def Closed {K : Type} {n : Nat} {id : String} {pc : Int} {net : Net} (g : Group K n id pc net) : Prop :=
  ∀ i, net.on i → ∀ m, .handled m ∈ (g.r i).log → m.op ≤ 7 → (∃ a, Accepts (g.c i) m a) → m.rcpt = (i : Int) ∧ ∃ j, net.on j ∧ .sent m ∈ (g.r j).log

/-- What a member sends in the generation is handled by the member it is for. -/
def Timely {K : Type} {n : Nat} {id : String} {pc : Int} {net : Net} (g : Group K n id pc net) : Prop :=
  ∀ i, net.on i → ∀ j, net.on j → ∀ m, .sent m ∈ (g.r j).log → m.rcpt = (i : Int) → m.op ≤ 7 → .handled m ∈ (g.r i).log

theorem conf_facts {c : Conf Dto Obj (Data K)} {y : Kyb K} {id : String} {i n : Nat} (h : Runs c y id i n) :
    c.id = id ∧ c.self = (i : Int) ∧ c.members = n := by
  rcases h with rfl | ⟨_, _, _, rfl⟩ <;> exact ⟨rfl, rfl, rfl⟩

/-- C99 (all together). When members run the generation, accept only what members sent and handle all of it in time, and all get
to the last stage of the generation, then everything that was accepted is what honest members say, and every one has put out its
share of the key, with these members qualified. -/
theorem C99_together {n : Nat} {id : String} {pc : Int} {net : Net} (hn : Proper net n) (g : Group K n id pc net) (hc : Closed g)
    (ht : Timely g) (h8 : ∀ i, net.on i → 8 ≤ stageOf (g.r i).log) :
    ∀ i, net.on i → Honestly (g.c i) net 7 (g.r i).log ∧ Heard (g.c i) net 7 (g.r i).log ∧
      (∀ l1 l2, (g.r i).log = l1 ++ .abandoned :: l2 → pc = 1 ∧ 9 ≤ stageOf l1) ∧
      ∃ q o, (g.r i).user.qual = some q ∧ Qualify net q ∧ (g.r i).user.out = .key (net.key i) q :: o ∧
        (pc ≠ 1 → o = []) ∧ (g.y i).distKeyShare (g.r i).user.kyb = .ok (net.key i) ∧
        Qualify net ((g.y i).qual (g.r i).user.kyb) := by
  have key : ∀ k : Nat, k ≤ 7 → ∀ i, net.on i → Honestly (g.c i) net k (g.r i).log ∧ Heard (g.c i) net k (g.r i).log := by
    intro k
    induction k with
    | zero =>
      intro _ i hi
      obtain ⟨hcf, hpc⟩ := g.conf i hi
      refine ⟨fun m hm ho ha => ?_, fun m hs _ ho => ?_⟩
      · obtain ⟨p, rest, e, _⟩ := runs_conf hcf
        obtain ⟨a, s, h1, h2, h3, _⟩ := ha
        have : m.op = 0 := by have : m.op ≤ ((0 : Nat) : Int) := ho; omega
        rw [this, e] at h1
        have h1 : some (psStep stepInit) = some s := h1
        rw [← Option.some.inj h1] at h3
        cases h3
      · have := says_op hs
        have : m.op ≤ ((0 : Nat) : Int) := ho
        omega
    | succ k ih =>
      intro hk i hi
      have ih := ih (by omega)
      obtain ⟨hcf, hpc⟩ := g.conf i hi
      obtain ⟨hid, hself, hmem⟩ := conf_facts hcf
      refine ⟨fun m hm ho ha => ?_, fun m hs hrc ho => ?_⟩
      · by_cases hok : m.op ≤ k
        · exact (ih i hi).1 m hm hok ha
        · have hop : m.op = k + 1 := by push_cast at ho; omega
          obtain ⟨hrc, j, hj, hsent⟩ := hc i hi m hm (by omega) ha
          obtain ⟨hcj, hpj⟩ := g.conf j hj
          obtain ⟨jid, jself, jmem⟩ := conf_facts hcj
          have aj := agree_exec (g.run j hj)
          have hreq : .request m ∈ (g.r j).log := by
            have h1 := aj.inv.core.sent m.op
            have h2 : m ∈ sentOf m.op (g.r j).log := by
              rw [sentOf, List.mem_filterMap]; exact ⟨_, hsent, by simp⟩
            rw [h1] at h2
            by_cases hst : m.op ≤ (g.r j).state
            · rw [if_pos hst, requestsOf, List.mem_filterMap] at h2
              obtain ⟨x, hx, h2⟩ := h2
              cases x with
              | request m' =>
                dsimp only at h2
                by_cases ho : m'.op = m.op
                · rw [if_pos ho] at h2; rw [← Option.some.inj h2]; exact hx
                · rw [if_neg ho] at h2; cases h2
              | _ => cases h2
            · rw [if_neg hst] at h2; cases h2
          obtain ⟨h1, h2⟩ := C99_only hj hn (g.gen j hj) hcj (g.run j hj) m hreq (by omega)
            (fun m' h1 h2 h3 => (ih j hj).1 m' h1 (by omega) h3) (fun m' h1 h2 h3 => (ih j hj).2 m' h1 h2 (by omega))
          refine ⟨?_, by rw [hself]; exact hrc⟩
          rw [hmem, hpc, hid, ← hpj]; exact h1
      · by_cases hok : m.op ≤ k
        · exact (ih i hi).2 m hs hrc hok
        · have hop : m.op = k + 1 := by push_cast at ho; omega
          rw [hmem, hpc, hid] at hs
          rw [hself] at hrc
          obtain ⟨j, hj, hse⟩ : ∃ j, net.on j ∧ m.sender = (j : Int) := by
            cases hs with
            | @deal a _ _ ha => exact ⟨a, ha, rfl⟩
            | @response v _ _ hv => exact ⟨v, hv, rfl⟩
            | @commits a _ _ ha => exact ⟨a, ha, rfl⟩
          obtain ⟨hcj, hpj⟩ := g.conf j hj
          refine ht i hi j hj m (C99_sends hj hn (g.gen j hj) hcj (g.run j hj) m (by rw [hpj]; exact hs) hse (by have := h8 j hj; omega)
            (fun m' h1 h2 h3 => (ih j hj).1 m' h1 (by omega) h3) (fun m' h1 h2 h3 => (ih j hj).2 m' h1 h2 (by omega))) hrc (by omega)
  intro i hi
  obtain ⟨h1, h2⟩ := key 7 (by omega) i hi
  obtain ⟨hcf, hpc⟩ := g.conf i hi
  obtain ⟨h3, h4⟩ := C99_key hi hn (g.gen i hi) hcf (g.run i hi) h1 h2
  rw [hpc] at h3 h4
  exact ⟨h1, h2, h3, h4 (h8 i hi)⟩

end Verif.Props.Generation
