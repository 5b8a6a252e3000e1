import Verif.Spec.NetLoad
import Verif.Props.NetTime

/-!
Property C109: a queue with little load delivers within a bounded time, and a network of such queues works as C103 assumes.
-/
namespace Verif.Props.NetTime
open Verif.NetTime Verif.Spec.NetTime
open Verif.NetCaller (CPc Pc Connector)
variable {M : Type}

section load
variable {t0 D L W : Int} {B : Nat} {s s' : St M} {e : Ev M} {h : List (Ev M)}

/-- The last time. -/
def last (t0 : Int) : List (Ev M) → Int
  | [] => t0
  | .tick t :: h => last t h
  | _ :: h => last t0 h

theorem now_step (hs : step s e = .ok s') : s'.now = last s.now [e] := by
  cases move_of_step hs <;> subst_vars <;> rfl

theorem now_run {h : List (Ev M)} (hr : run s h = .ok s') : s'.now = last s.now h := by
  induction h generalizing s with
  | nil => cases hr; rfl
  | cons e h ih =>
    rw [run, Outcome.bind_eq_ok] at hr
    obtain ⟨s1, h1, h2⟩ := hr
    rw [ih h2, now_step h1]
    cases e <;> rfl

theorem stamps_append (t0 : Int) (h1 h2 : List (Ev M)) : stamps t0 (h1 ++ h2) = stamps t0 h1 ++ stamps (last t0 h1) h2 := by
  induction h1 generalizing t0 with
  | nil => rfl
  | cons e h1 ih => cases e <;> simp only [List.cons_append, stamps, last, ih]

theorem now_mono (hs : step s e = .ok s') : s.now ≤ s'.now := by
  cases move_of_step hs with
  | tick t h1 h2 => subst h2; exact Int.le_of_lt h1
  | _ => subst_vars; exact Int.le_refl _

theorem now_mono_run {h : List (Ev M)} (hr : run s h = .ok s') : s.now ≤ s'.now :=
  run_induct (P := fun z => s.now ≤ z.now) (Int.le_refl _) (fun _ _ _ _ hi hs => hi.trans (now_mono hs)) hr

/-- The stamps of a history are not after its end. -/
theorem stamps_le {h : List (Ev M)} (hr : run s h = .ok s') : ∀ a ∈ stamps s.now h, a ≤ s'.now := by
  induction h generalizing s with
  | nil => exact nofun
  | cons e h ih =>
    have hr0 := hr
    rw [run, Outcome.bind_eq_ok] at hr
    obtain ⟨s1, h1, h2⟩ := hr
    have hn := now_step h1
    have := ih h2
    rw [hn] at this
    intro a ha
    cases e <;> first | exact this a ha | skip
    rcases List.mem_cons.1 ha with rfl | ha
    · exact now_mono_run hr0
    · exact this a ha

/-- Where the clock of the queue is, for what is still to be delivered. -/
def base (s : St M) : Int := if s.base.pc = .call then s.since else s.now

/-- What holds while there is little load. -/
structure LI (t0 D L W : Int) (ts : List Int) (s : St M) : Prop where
  di : DI t0 D L s
  all : s.base.offered = s.base.accepted
  len : s.base.accepted.length = ts.length
  none : s.base.pc = .spawn ∨ s.base.pc = .wait → ts = []
  due : ∀ (i : Nat) (a : Int), ts[i]? = some a → s.base.calls.length ≤ i → base s + ((i : Int) - s.base.calls.length + 1) * L ≤ a + W
  good : ∀ c ∈ s.base.calls, c.2.2 = true

theorem called_length (s : St M) : (called s).length = s.base.calls.length := by
  rw [called, Spec.NetCaller.called, List.length_map]

theorem flow_length (h : DI t0 D L s) : s.base.accepted.length = s.base.calls.length + (held s.base).length + s.base.queue.length := by
  rw [h.flow, List.length_append, List.length_append, called_length]

theorem li_init (t0 D L W : Int) : LI t0 D L W [] (init t0 : St M) := ⟨di_init t0 D L, rfl, rfl, fun _ => rfl, nofun, nofun⟩

theorem li_step (hD : 0 ≤ D) (hL : 0 ≤ L) (hB : B ≤ 1000) (hW : (B : Int) * L ≤ W) {ts : List Int} (h : LI t0 D L W ts s)
    (ht : ∀ t, e = .tick t → Timely D L s t) (hd : ∀ i r, e = .dialled i r → r ≠ none) (hc : ∀ ok, e = .call ok → ok = true)
    (hst : ∀ m, e = .send m → t0 + 2000 + D < s.now) (hld : Load B W (ts ++ stamps s.now [e]))
    (hs : step s e = .ok s') : LI t0 D L W (ts ++ stamps s.now [e]) s' := by
  have di' := di_step hD hL h.di ht hd hc hs
  obtain ⟨hdi, hall, hlen, hnone, hdue, hgood⟩ := h
  have hfl := flow_length hdi
  cases move_of_step hs with
  | tick t h1 h2 =>
    subst h2
    obtain ⟨g1, g2, g3, g4, g5⟩ := ht t rfl
    change LI t0 D L W (ts ++ []) _; rw [List.append_nil]
    refine ⟨di', hall, hlen, hnone, fun i a hi hc => ?_, hgood⟩
    have := hdue i a hi hc
    by_cases hcall : s.base.pc = .call
    · rw [base, if_pos hcall] at this
      rw [base]
      dsimp only at hc ⊢
      rw [if_pos hcall]; exact this
    · exfalso
      have hlt := (List.getElem?_eq_some_iff.1 hi).1
      dsimp only at hc
      rw [held, if_neg hcall] at hfl
      have hq : s.base.queue ≠ [] := fun e => by rw [e] at hfl; simp at hfl; omega
      rcases hdi.shape with ⟨k1, _⟩ | ⟨k1, _⟩ | ⟨k1 | k1 | k1, _⟩
      · rw [hnone (.inl k1)] at hi; cases hi
      · rw [hnone (.inr k1)] at hi; cases hi
      · exact g1 (.get (.inr (.inl k1)) hq)
      · exact hcall k1
      · exact g1 (.get (.inr (.inr k1)) hq)
  | send m h2 =>
    subst h2
    have hnow := hst m rfl
    change Load B W (ts ++ [s.now]) at hld
    change LI t0 D L W (ts ++ [s.now]) _
    have hshape : (s.base.pc = .first ∨ s.base.pc = .call ∨ s.base.pc = .post) := by
      rcases hdi.shape with ⟨_, _, _, k4, _⟩ | ⟨_, c, y, _, _, _, k5⟩ | ⟨k1, _⟩
      · omega
      · rcases k5 with ⟨_, _, k⟩ | ⟨_, _, _, k, k'⟩ | ⟨_, _, _, k⟩ <;> omega
      · exact k1
    -- the messages that wait were sent within the last `W`
    have hlate : ∀ (i : Nat) (a : Int), ts[i]? = some a → s.base.calls.length ≤ i → s.now ≤ a + W := by
      intro i a hi hci
      have h1 := hdue i a hi hci
      have h2 : 1 * L ≤ ((i : Int) - s.base.calls.length + 1) * L := Int.mul_le_mul_of_nonneg_right (by omega) hL
      rw [base] at h1
      split at h1
      · next hcall => have := (hdi.call hcall).2; omega
      · omega
    have hcl : s.base.calls.length ≤ ts.length := by omega
    have hk : ts.length + 1 ≤ B + s.base.calls.length := by
      rcases Nat.lt_or_ge (ts.length) (B + s.base.calls.length) with hk | hk
      · exact hk
      · exfalso
        rcases Nat.eq_zero_or_pos B with rfl | hpos
        · have := hld ts.length s.now s.now (by simp) (by simp)
          simp at hW; omega
        · obtain ⟨a, ha⟩ : ∃ a, ts[ts.length - B]? = some a := ⟨_, List.getElem?_eq_getElem (by omega)⟩
          have h1 := hlate _ a ha (by omega)
          have h2 := hld (ts.length - B) a s.now (by rw [List.getElem?_append_left (by omega)]; exact ha)
            (by rw [Nat.sub_add_cancel (by omega)]; simp)
          omega
    have hroom : s.base.queue.length < NetCaller.msgMax := by
      show _ < 1000
      omega
    have htry : NetCaller.trySend s.base m =
        { s.base with queue := s.base.queue ++ [m], offered := s.base.offered ++ [m], accepted := s.base.accepted ++ [m] } := by
      rw [NetCaller.trySend, if_pos hroom]
    rw [htry] at di' ⊢
    refine ⟨di', ?_, ?_, fun a => ?_, fun i a hi hci => ?_, hgood⟩
    · dsimp only; rw [hall]
    · dsimp only; rw [List.length_append, List.length_append, hlen]; rfl
    · exfalso; dsimp only at a; rcases hshape with k | k | k <;> rw [k] at a <;> rcases a with a | a <;> cases a
    · rcases Nat.lt_or_ge i ts.length with hlt | hge
      · rw [List.getElem?_append_left hlt] at hi
        exact hdue i a hi hci
      · rw [List.getElem?_append_right hge] at hi
        have hi0 : i = ts.length := by
          rcases Nat.eq_zero_or_pos (i - ts.length) with h0 | h0
          · omega
          · obtain ⟨n, hn⟩ : ∃ n, i - ts.length = n + 1 := ⟨_, (Nat.succ_pred_eq_of_pos h0).symm⟩
            rw [hn] at hi; cases hi
        subst hi0
        rw [Nat.sub_self] at hi
        obtain rfl : s.now = a := by simpa using hi
        have hb : base s ≤ s.now := by
          rw [base]
          split
          · next hcall => exact (hdi.call hcall).1
          · exact Int.le_refl _
        have h1 : ((ts.length : Int) - s.base.calls.length + 1) * L ≤ (B : Int) * L := Int.mul_le_mul_of_nonneg_right (by omega) hL
        show base s + _ ≤ _
        dsimp only
        omega
  | get b h1 h2 =>
    subst h2
    obtain ⟨k1, k2, k3, k4, k5, k6, k7⟩ := inv_get h1
    change LI t0 D L W (ts ++ []) _; rw [List.append_nil]
    have hne : s.base.pc ≠ .call ∧ b.pc = .call := by
      rcases k6 with ⟨k8, _⟩ | ⟨k8, k9, k10⟩ | ⟨k8, k9, _, k10⟩
      · rcases hdi.shape with ⟨k1, _⟩ | ⟨k1, _⟩ | ⟨k1 | k1 | k1, _⟩ <;> (rw [k8] at k1; cases k1)
      · exact ⟨by rw [k8]; exact nofun, k9⟩
      · rw [hdi.failed] at k10
        exact ⟨by rw [k8]; exact nofun, k10⟩
    refine ⟨di', by dsimp only; rw [k4, k5]; exact hall, by dsimp only; rw [k4]; exact hlen, fun a => ?_, fun i a hi hci => ?_, by dsimp only; rw [k2]; exact hgood⟩
    · dsimp only at a; rw [hne.2] at a; rcases a with a | a <;> cases a
    · dsimp only at hci
      rw [k2] at hci
      have := hdue i a hi hci
      rw [base, if_neg hne.1] at this
      rw [base]
      dsimp only
      rw [if_pos hne.2, if_pos ⟨hne.2, hne.1⟩, k2]; exact this
  | call ok c m h1 h2 h3 h4 =>
    subst h4
    obtain rfl := hc ok rfl
    change LI t0 D L W (ts ++ []) _; rw [List.append_nil]
    refine ⟨di', hall, hlen, (fun a => by dsimp only at a; rcases a with a | a <;> cases a), fun i a hi hci => ?_, fun c' hc' => ?_⟩
    · dsimp only at hci
      rw [List.length_append] at hci
      have hci : s.base.calls.length + 1 ≤ i := hci
      have := hdue i a hi (by omega)
      rw [base, if_pos h1] at this
      have hlt := (hdi.call h1).2
      rw [base]
      dsimp only
      rw [if_neg nofun, List.length_append]
      have e : (i : Int) - ((s.base.calls.length + [(c, m, true)].length : Nat) : Int) + 1 = (i : Int) - s.base.calls.length := by simp; omega
      rw [e]
      rw [Int.add_mul, Int.one_mul] at this
      omega
    · rcases List.mem_append.1 hc' with hc' | hc'
      · exact hgood c' hc'
      · rw [List.mem_singleton.1 hc']
  | spawn retry delay h1 h2 h3 h4 =>
    subst h4
    change LI t0 D L W (ts ++ []) _; rw [List.append_nil]
    have hts := hnone (.inl h3)
    subst hts
    exact ⟨di', hall, hlen, fun _ => rfl, nofun, hgood⟩
  | recv i c x h1 h2 h3 h4 =>
    subst h4
    change LI t0 D L W (ts ++ []) _; rw [List.append_nil]
    have hts := hnone (.inr h3)
    subst hts
    exact ⟨di', hall, hlen, fun _ => rfl, nofun, hgood⟩
  | dial i n delay till c h1 h2 h3 h4 h5 => subst h5; change LI t0 D L W (ts ++ []) _; rw [List.append_nil]; exact ⟨di', hall, hlen, hnone, hdue, hgood⟩
  | refused i n delay since h1 h2 h3 => exact absurd rfl (hd _ _ rfl)
  | tried i n delay since r c c' h1 h2 h3 h4 h5 => subst h5; change LI t0 D L W (ts ++ []) _; rw [List.append_nil]; exact ⟨di', hall, hlen, hnone, hdue, hgood⟩
  | rest i n delay c h1 h2 h3 h4 => subst h4; change LI t0 D L W (ts ++ []) _; rw [List.append_nil]; exact ⟨di', hall, hlen, hnone, hdue, hgood⟩
  | again i delay y till c c' h1 h2 h3 h4 h5 h6 h7 => subst h7; change LI t0 D L W (ts ++ []) _; rw [List.append_nil]; exact ⟨di', hall, hlen, hnone, hdue, hgood⟩
  | selConn i c x h1 h2 h3 h4 => rcases hdi.shape with ⟨k1, _⟩ | ⟨k1, _⟩ | ⟨k1 | k1 | k1, _⟩ <;> (rw [h3] at k1; cases k1)
  | selDrop h1 h2 => rcases hdi.shape with ⟨k1, _⟩ | ⟨k1, _⟩ | ⟨k1 | k1 | k1, _⟩ <;> (rw [h1] at k1; cases k1)
  | closing retry h1 h2 h3 => rcases hdi.shape with ⟨k1, _⟩ | ⟨k1, _⟩ | ⟨k1 | k1 | k1, _⟩ <;> (rw [h2] at k1; cases k1)

theorem load_prefix {ts ts' : List Int} (h : Load B W (ts ++ ts')) : Load B W ts := fun i a b ha hb =>
  h i a b (by rw [List.getElem?_append_left (List.getElem?_eq_some_iff.1 ha).1]; exact ha)
    (by rw [List.getElem?_append_left (List.getElem?_eq_some_iff.1 hb).1]; exact hb)

theorem li_run (hD : 0 ≤ D) (hL : 0 ≤ L) (hB : B ≤ 1000) (hW : (B : Int) * L ≤ W) {h : List (Ev M)} (hp : Prompt D L (init t0) h) (ha : Answers h)
    (hst : ∀ a ∈ stamps t0 h, t0 + 2000 + D < a) (hld : Load B W (stamps t0 h)) {s : St M} (hr : run (init t0) h = .ok s) :
    LI t0 D L W (stamps t0 h) s := by
  induction h using List.reverseRecOn generalizing s with
  | nil => cases hr; exact li_init t0 D L W
  | append_singleton h e ih =>
    rw [run_append, Outcome.bind_eq_ok] at hr
    obtain ⟨s1, h1, h2⟩ := hr
    have hn : s1.now = last t0 h := now_run h1
    rw [run, Outcome.bind_eq_ok] at h2
    obtain ⟨s2, h3, h4⟩ := h2
    cases h4
    rw [stamps_append, ← hn] at hst hld ⊢
    obtain ⟨p1, p2⟩ := prompt_split hp h1
    have hi := ih p1 ⟨fun i r hm => ha.1 i r (List.mem_append_left _ hm), fun ok hm => ha.2 ok (List.mem_append_left _ hm)⟩
      (fun a hm => hst a (List.mem_append_left _ hm)) (load_prefix hld) h1
    refine li_step hD hL hB hW hi (fun t he => p2 [] t [] (by rw [he]; rfl) s1 rfl) (fun i r he => ha.1 i r ?_) (fun ok he => ha.2 ok ?_)
      (fun m he => hst _ (List.mem_append_right _ ?_)) hld h3
    · rw [he]; exact List.mem_append_right _ (List.mem_singleton_self _)
    · rw [he]; exact List.mem_append_right _ (List.mem_singleton_self _)
    · rw [he]; exact List.mem_singleton_self _

theorem li_late (hL : 0 ≤ L) {ts : List Int} (h : LI t0 D L W ts s) (i : Nat) (a : Int) (hi : ts[i]? = some a) (hl : a + W < s.now) :
    i < s.base.calls.length := by
  refine Classical.byContradiction fun hn => ?_
  have h1 := h.due i a hi (by omega)
  have h2 : 1 * L ≤ ((i : Int) - s.base.calls.length + 1) * L := Int.mul_le_mul_of_nonneg_right (by omega) hL
  rw [base] at h1
  split at h1
  · next hcall => have := (h.di.call hcall).2; omega
  · omega

end load

/-- C109 (load). Let the peer be there, with dialling taking at most `D` and a call at most `L`, and let no thread be late. Let nothing be sent in the first
two seconds and `D`, and within any time `W` no more than `B` messages, where `B` calls take no longer than `W` and `B` messages fit into the queue. Then
no message is dropped, and each has been delivered, in its turn, when `W` is over after it was sent. -/
theorem C109_load (t0 D L W : Int) (B : Nat) (hD : 0 ≤ D) (hL : 0 ≤ L) (hB : B ≤ 1000) (hW : (B : Int) * L ≤ W) (h : List (Ev M)) (s : St M)
    (hr : run (init t0) h = .ok s) (hp : Prompt D L (init t0) h) (ha : Answers h) (hst : ∀ a ∈ stamps t0 h, t0 + 2000 + D < a)
    (hld : Load B W (stamps t0 h)) :
    s.base.accepted = sends h ∧ called s <+: sends h ∧ ∀ (i : Nat) (a : Int), (stamps t0 h)[i]? = some a → a + W < s.now → (called s)[i]? = (sends h)[i]? := by
  have hi := li_run hD hL hB hW hp ha hst hld hr
  have hsend : s.base.accepted = sends h := by
    obtain ⟨h0, h1, h2, _⟩ := C108_refines t0 h s hr
    rw [← hi.all, ← h2]
    have := Props.NetCaller.offered_run h1
    rwa [show (NetCaller.init : NetCaller.St M).offered = [] from rfl, List.nil_append] at this
  have hpre : called s <+: sends h := by
    rw [← hsend, hi.di.flow, List.append_assoc]
    exact List.prefix_append _ _
  refine ⟨hsend, hpre, fun i a hia hl => ?_⟩
  have hlt := li_late hL hi i a hia hl
  obtain ⟨r, hr⟩ := hpre
  rw [← hr, List.getElem?_append_left (by rw [called_length]; exact hlt)]

end Verif.Props.NetTime
