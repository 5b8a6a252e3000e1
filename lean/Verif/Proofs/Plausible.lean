import Verif.Proofs.Generation

/-! Which messages pass the checks of the two protocols. -/
namespace Verif.Generation
open Verif.Prot Verif.Spec.Prot Verif.Spec.Generation Verif.Dkg Verif.Dto Verif.Dss
variable {K : Type}

theorem uint32_nat (s : Nat) : uint32 (s : Int) = s % 2 ^ 32 := by
  rw [uint32]; omega

/-- A processor with its decoder and its test. -/
theorem accepts_stage {c : Conf Dto Obj (Data K)} {m : Message Dto} {a : Obj} (h : Accepts c m a) :
    ∃ (st : Stage Dto Obj (Data K)) (s : Nat), c.stage? m.op = some st ∧ st.proc.isSome = true ∧ st.typeOk m.dto = true ∧ st.unmarshal m.dto = .ok a ∧
      m.sender = s ∧ s < c.members ∧ st.senderValid a s = .ok true := by
  obtain ⟨st, h1, h2, h3, h4, h5, h6, h7, h8⟩ := h
  obtain ⟨s, hs⟩ := Int.eq_ofNat_of_zero_le h6
  refine ⟨st, s, ?_, h3, h4, h5, hs, by omega, by rw [hs] at h8; exact h8⟩
  rw [Conf.stage?, if_neg (by omega)]; exact h1

theorem stage_accepts {c : Conf Dto Obj (Data K)} {m : Message Dto} {a : Obj} {st : Stage Dto Obj (Data K)} {s : Nat} (h1 : c.stage? m.op = some st)
    (h2 : st.proc.isSome = true) (h3 : st.typeOk m.dto = true) (h4 : st.unmarshal m.dto = .ok a) (h5 : m.sender = s) (h6 : s < c.members)
    (h7 : st.senderValid a s = .ok true) : Accepts c m a := by
  obtain ⟨h0, h1⟩ := stage?_some h1
  exact ⟨st, h1, h0, h2, h3, h4, by omega, by omega, by rw [h5]; exact h7⟩

theorem bind_ok {A B : Type} {x : Outcome A} {f : A → B} {b : B} (h : (x >>= fun o => .ok (f o)) = .ok b) : ∃ o, x = .ok o ∧ f o = b := by
  cases x with
  | ok o => exact ⟨o, rfl, Outcome.ok.inj h⟩
  | err => cases h
  | panic => cases h

theorem ok_decide {p : Prop} [Decidable p] (h : (.ok (decide p) : Outcome Bool) = .ok true) : p := of_decide_eq_true (Outcome.ok.inj h)

variable {y : Kyb K} {pc : Int} {id : String} {i n : Nat} {rest : List (Stage Dto Obj (Data K))}

/-- In the generation only plausible messages get to the processors, -/
theorem accepts_plausible {m : Message Dto} (ho : m.op ≤ 8) (h : ∃ a, Accepts (confOf y pc id i n rest) m a) : Plausible n m := by
  obtain ⟨a, h⟩ := h
  obtain ⟨st, s, h1, h2, h3, h4, h5, h6, h7⟩ := accepts_stage h
  have h6 : s < n := h6
  obtain ⟨se, pc', b, id', op, dto⟩ := m
  have h5 : se = s := h5
  subst h5
  have ho : op ≤ 8 := ho
  have h1 : (confOf y pc id i n rest).stage? op = some st := h1
  rcases stage_cases h1 with ⟨rfl, rfl⟩ | ⟨rfl, rfl⟩ | ⟨rfl, rfl⟩ | ⟨rfl, rfl⟩ | ⟨rfl, rfl⟩ | ⟨rfl, rfl⟩ | ⟨rfl, rfl⟩ | ⟨rfl, rfl⟩ | ⟨rfl, rfl⟩ | ⟨h9, _⟩
  · cases h2
  · cases dto with
    | deal x =>
      obtain ⟨o, h8, rfl⟩ := bind_ok (show (dtoToDeal x >>= fun o => .ok (Obj.deal o)) = .ok a from h4)
      exact .deal h6 h8 (by rw [← uint32_nat]; exact ok_decide h7)
    | _ => cases h3
  · cases dto with
    | response x =>
      obtain rfl := Outcome.ok.inj (show (.ok (.response x) : Outcome Obj) = .ok a from h4)
      have h7 : (match x.response with | none => .panic | some v => .ok (decide (v.index = uint32 (s : Int)))) = (.ok true : Outcome Bool) := h7
      cases hx : x.response with
      | none => rw [hx] at h7; cases h7
      | some v => rw [hx] at h7; exact .response h6 hx (by rw [← uint32_nat]; exact ok_decide h7)
    | _ => cases h3
  · cases dto with
    | justification x =>
      obtain ⟨o, h8, rfl⟩ := bind_ok (show (dtoToJustification x >>= fun o => .ok (Obj.justification o)) = .ok a from h4)
      have h7 := Outcome.ok.inj (show (.ok (decide (o.index = uint32 (s : Int)) && decide (o.jIndex = uint32 (s : Int))) : Outcome Bool) = .ok true from h7)
      rw [Bool.and_eq_true, decide_eq_true_eq, decide_eq_true_eq, uint32_nat] at h7
      exact .justification h6 h8 h7.1 h7.2
    | _ => cases h3
  · cases h2
  · cases dto with
    | commits x =>
      obtain ⟨o, h8, rfl⟩ := bind_ok (show (dtoToCommits x >>= fun o => .ok (Obj.commits o)) = .ok a from h4)
      exact .commits h6 h8 (by rw [← uint32_nat]; exact ok_decide h7)
    | _ => cases h3
  · cases dto with
    | complCommits x =>
      obtain ⟨o, h8, rfl⟩ := bind_ok (show (dtoToComplCommits x >>= fun o => .ok (Obj.complCommits o)) = .ok a from h4)
      exact .complCommits h6 h8 (by rw [← uint32_nat]; exact ok_decide h7)
    | _ => cases h3
  · cases dto with
    | reconsCommits x =>
      obtain ⟨o, h8, rfl⟩ := bind_ok (show (dtoToReconsCommits x >>= fun o => .ok (Obj.reconsCommits o)) = .ok a from h4)
      exact .reconsCommits h6 h8 (by rw [← uint32_nat]; exact ok_decide h7)
    | _ => cases h3
  · cases h2
  · omega

/-- and all of these. -/
theorem plausible_accepts {m : Message Dto} (h : Plausible n m) (ho : m.op ≤ 8) : ∃ a, Accepts (confOf y pc id i n rest) m a := by
  cases h with
  | @deal s _ _ _ x o h1 h2 h3 => exact ⟨.deal o, stage_accepts (st := psProc _ _ _ _) rfl rfl rfl (by show unmarshal .deal (.deal x) = _; rw [unmarshal, h2]; rfl) rfl h1
      (by show Outcome.ok (decide _) = _; rw [uint32_nat, decide_eq_true h3])⟩
  | @response s _ _ _ x v h1 h2 h3 => exact ⟨.response x, stage_accepts (st := psProc _ _ _ _) rfl rfl rfl rfl rfl h1 (by
      show responseV (.response x) (s : Int) = _
      rw [responseV, h2]
      dsimp only
      rw [uint32_nat, decide_eq_true h3])⟩
  | @justification s _ _ _ x o h1 h2 h3 h4 => exact ⟨.justification o, stage_accepts (st := psProc _ _ _ _) rfl rfl rfl
      (by show unmarshal .justification (.justification x) = _; rw [unmarshal, h2]; rfl) rfl h1
      (by show Outcome.ok (decide _ && decide _) = _; rw [uint32_nat, decide_eq_true h3, decide_eq_true h4]; rfl)⟩
  | @commits s _ _ _ x o h1 h2 h3 => exact ⟨.commits o, stage_accepts (st := psProc _ _ _ _) rfl rfl rfl (by show unmarshal .commits (.commits x) = _; rw [unmarshal, h2]; rfl) rfl h1
      (by show Outcome.ok (decide _) = _; rw [uint32_nat, decide_eq_true h3])⟩
  | @complCommits s _ _ _ x o h1 h2 h3 => exact ⟨.complCommits o, stage_accepts (st := psProc _ _ _ _) rfl rfl rfl
      (by show unmarshal .complCommits (.complCommits x) = _; rw [unmarshal, h2]; rfl) rfl h1 (by show Outcome.ok (decide _) = _; rw [uint32_nat, decide_eq_true h3])⟩
  | @reconsCommits s _ _ _ x o h1 h2 h3 => exact ⟨.reconsCommits o, stage_accepts (st := psProc _ _ _ _) rfl rfl rfl
      (by show unmarshal .reconsCommits (.reconsCommits x) = _; rw [unmarshal, h2]; rfl) rfl h1 (by show Outcome.ok (decide _) = _; rw [uint32_nat, decide_eq_true h3])⟩
  | partsig => exact absurd ho (by show ¬ ((10 : Int) ≤ 8); decide)

/-- The same for the whole signing run. -/
theorem dss_accepts {H : List UInt8 → List UInt8} {SH : Share → List UInt8} {env : Env} {m : Message Dto} :
    (∃ a, Accepts (dssConf y H SH env id i n) m a) ↔ Plausible n m := by
  constructor
  · intro h
    by_cases ho : m.op ≤ 8
    · exact accepts_plausible (pc := 1) (rest := [psStep (stInit y H env), psProc (some (stPartsig H SH env)) (prPartsig H SH) .partsig partsigV,
          psStep (dssStFinal H)]) ho h
    · obtain ⟨a, h⟩ := h
      obtain ⟨st, s, h1, h2, h3, h4, h5, h6, h7⟩ := accepts_stage h
      obtain ⟨se, pc', b, id', op, dto⟩ := m
      have h5 : se = s := h5
      subst h5
      have ho : ¬ op ≤ 8 := ho
      have h6 : s < n := h6
      obtain ⟨h0, h1⟩ := stage?_some h1
      have h1 : (dssStages y H SH env)[op.toNat]? = some st := h1
      obtain ⟨k, rfl⟩ := Int.eq_ofNat_of_zero_le h0
      rw [Int.toNat_natCast] at h1
      have hlt : k < 12 := by
        obtain ⟨h, _⟩ := List.getElem?_eq_some_iff.1 h1
        exact h
      have hk : k = 9 ∨ k = 10 ∨ k = 11 := by omega
      rcases hk with rfl | rfl | rfl
      · obtain rfl := Option.some.inj (show some (psStep _) = some st from h1); cases h2
      · obtain rfl := Option.some.inj (show some (psProc _ _ _ _) = some st from h1)
        cases dto with
        | partsig x =>
          obtain ⟨o, h8, rfl⟩ := bind_ok (show (dtoToPartsig x >>= fun o => .ok (Obj.partsig o)) = .ok a from h4)
          exact .partsig h6 h8 (ok_decide h7)
        | _ => cases h3
      · obtain rfl := Option.some.inj (show some (psStep _) = some st from h1); cases h2
  · intro h
    by_cases ho : m.op ≤ 8
    · exact plausible_accepts (pc := 1) (rest := [psStep (stInit y H env), psProc (some (stPartsig H SH env)) (prPartsig H SH) .partsig partsigV,
          psStep (dssStFinal H)]) h ho
    · cases h with
      | @partsig s _ _ _ x o h1 h2 h3 => exact ⟨.partsig o, stage_accepts (st := psProc _ _ _ _) rfl rfl rfl
          (by show unmarshal .partsig (.partsig x) = _; rw [unmarshal, h2]; rfl) rfl h1 (by show Outcome.ok (decide _) = _; rw [decide_eq_true h3])⟩
      | deal => exact absurd (by show (1 : Int) ≤ 8; decide) ho
      | response => exact absurd (by show (2 : Int) ≤ 8; decide) ho
      | justification => exact absurd (by show (3 : Int) ≤ 8; decide) ho
      | commits => exact absurd (by show (5 : Int) ≤ 8; decide) ho
      | complCommits => exact absurd (by show (6 : Int) ≤ 8; decide) ho
      | reconsCommits => exact absurd (by show (7 : Int) ≤ 8; decide) ho

/-- The same for a key generation. -/
theorem dkg_accepts {m : Message Dto} : (∃ a, Accepts (dkgConf y id i n) m a) ↔ Plausible n m ∧ m.op ≤ 8 := by
  constructor
  · intro h
    have ho : m.op ≤ 8 := by
      obtain ⟨_, st, h1, h0, _⟩ := h
      have : m.op.toNat < 9 := (List.getElem?_eq_some_iff.1 h1).1
      omega
    exact ⟨accepts_plausible (pc := 0) (rest := []) ho h, ho⟩
  · exact fun h => plausible_accepts (pc := 0) (rest := []) h.1 h.2

/-- A message of no known type is not. -/
theorem other_implausible {m : Message Dto} (h : m.dto = .other) : ¬ Plausible n m := by
  intro hp
  cases hp <;> cases h

end Verif.Generation
