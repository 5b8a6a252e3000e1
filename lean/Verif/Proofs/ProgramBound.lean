import Verif.Proofs.ProgramQuiet
import Verif.Proofs.NodeDrain

/-! A bound on what can still happen by itself in the program. -/
namespace Verif.Registry
open Verif.Props.Registry (work weight total_len_delete task_kept)
variable {α : Type}

theorem total_mono {f g : α → Nat} {l : List α} (h : ∀ x ∈ l, f x ≤ g x) : total f l ≤ total g l := by
  induction l with
  | nil => exact Nat.le_refl _
  | cons a l ih =>
    have h1 := h a (List.mem_cons_self ..)
    have h2 := ih fun x hx => h x (List.mem_cons_of_mem _ hx)
    rw [total, total]; omega

theorem total_lt {f g : α → Nat} {l : List α} (h : ∀ x ∈ l, f x ≤ g x) {a : α} (ha : a ∈ l) (hl : f a < g a) : total f l < total g l := by
  induction l with
  | nil => cases ha
  | cons b l ih =>
    have h1 := h b (List.mem_cons_self ..)
    have h2 : total f l ≤ total g l := total_mono fun x hx => h x (List.mem_cons_of_mem _ hx)
    rw [total, total]
    rcases List.mem_cons.1 ha with rfl | ha
    · omega
    · have := ih (fun x hx => h x (List.mem_cons_of_mem _ hx)) ha; omega

theorem total_one {f g : α → Nat} {l : List α} (hn : l.Nodup) {a : α} {d : Nat} (h : ∀ x, x ≠ a → f x ≤ g x) (ha : f a ≤ g a + d) :
    total f l ≤ total g l + d := by
  induction l with
  | nil => exact Nat.zero_le _
  | cons b l ih =>
    rw [List.nodup_cons] at hn
    have h2 := ih hn.2
    rw [total, total]
    by_cases e : b = a
    · subst e
      have : total f l ≤ total g l := total_mono fun x hx => h x fun e => hn.1 (e ▸ hx)
      omega
    · have := h b e; omega

theorem work_obs {s s' : Reg} (ho : ObsInv s) {k : RunKey} (hs : step s (.obs k) = .ok s') : work s' = work s + 6 ∧ s'.objs = s.objs := by
  have hs := Outcome.ok.inj hs
  rw [← hs, obsTerm]
  refine ⟨?_, rfl⟩
  have h1 := total_len_delete ho.nodup k
  rw [work, work, total_append, GoMap.set, total]
  have h2 : GoMap.delete s.obs k = s.obs.filter fun p => decide (p.1 ≠ k) := rfl
  rw [h2] at h1
  simp only [List.length_append, List.length_singleton, total, weight]
  omega

theorem work_recv {s s' : Reg} {c : Nat} (hs : step s (.recv c) = .ok s') : work s' = work s ∧ s'.objs = s.objs := by
  rw [step, recv] at hs
  cases hc : s.chans[c]? with
  | none => rw [hc] at hs; cases hs
  | some ch =>
    rw [hc] at hs
    dsimp only at hs
    by_cases h1 : 0 < ch.unread
    · rw [if_pos h1] at hs; rw [← Outcome.ok.inj hs]; exact ⟨rfl, rfl⟩
    · rw [if_neg h1] at hs
      by_cases h2 : ch.closed = true
      · rw [if_pos h2] at hs; rw [← Outcome.ok.inj hs]; exact ⟨rfl, rfl⟩
      · rw [if_neg h2] at hs; cases hs

theorem work_ensure {s s' : Reg} {k : RunKey} (hs : step s (.ensure k) = .ok s') :
    s' = s ∨ (work s' = work s + 1 ∧ s'.objs.length = s.objs.length + 1) := by
  have hs := Outcome.ok.inj hs
  rw [← hs, ensure]
  cases s.runs.get? k with
  | some r => exact .inl rfl
  | none =>
    refine .inr ⟨?_, by rw [List.length_append]; rfl⟩
    rw [work, work, total_append]
    simp only [total, weight]
    omega

theorem work_delete {s s' : Reg} {k : RunKey} (hs : step s (.delete k) = .ok s') : work s' = work s ∧ s'.objs = s.objs := by
  rw [← Outcome.ok.inj hs]; exact ⟨rfl, rfl⟩

theorem work_finish {s s' : Reg} {r : Nat} (hs : step s (.finish r) = .ok s') :
    work s' = work s + 2 ∧ s'.objs.length = s.objs.length := by
  rw [step, finish] at hs
  cases ho : s.objs[r]? with
  | none => rw [ho] at hs; cases hs
  | some o =>
    rw [ho] at hs
    dsimp only at hs
    by_cases h : o.ended < o.started
    · rw [if_pos h] at hs
      rw [← Outcome.ok.inj hs]
      refine ⟨?_, by rw [List.length_set]⟩
      rw [work, work, total_append]
      simp only [total, weight]
      omega
    · rw [if_neg h] at hs; cases hs

theorem task_objs {s s' : Reg} {i : Nat} (hs : step s (.task i) = .ok s') : s'.objs.length = s.objs.length := by
  rw [step, taskStep] at hs
  cases hi : s.tasks[i]? with
  | none => rw [hi] at hs; cases hs
  | some t =>
    rw [hi] at hs
    cases t with
    | look k c =>
      dsimp only at hs
      cases hr : s.runs.get? k <;> rw [hr] at hs <;> rw [← Outcome.ok.inj hs]
    | read k c r =>
      dsimp only at hs
      cases hr : s.objs[r]? with
      | none => rw [hr] at hs; cases hs
      | some o =>
        rw [hr] at hs
        dsimp only at hs
        by_cases ht : o.terminated = true
        · rw [if_pos ht] at hs; rw [← Outcome.ok.inj hs]
        · rw [if_neg ht] at hs; rw [← Outcome.ok.inj hs]
    | update k => rw [← Outcome.ok.inj hs]
    | notify cs =>
      cases cs with
      | nil => rw [← Outcome.ok.inj hs]
      | cons c cs =>
        dsimp only at hs
        cases hc : s.chans[c]? with
        | none => rw [hc] at hs; cases hs
        | some ch =>
          rw [hc] at hs
          dsimp only at hs
          by_cases h1 : ch.closed = true
          · rw [if_pos h1] at hs; cases hs
          · rw [if_neg h1] at hs
            by_cases h2 : ch.unread < 1
            · rw [if_pos h2] at hs; rw [← Outcome.ok.inj hs]
            · rw [if_neg h2] at hs; cases hs
    | closing c cs =>
      dsimp only at hs
      cases hc : s.chans[c]? with
      | none => rw [hc] at hs; cases hs
      | some ch =>
        rw [hc] at hs
        dsimp only at hs
        by_cases h1 : ch.closed = true
        · rw [if_pos h1] at hs; cases hs
        · rw [if_neg h1] at hs; rw [← Outcome.ok.inj hs]
    | start r =>
      dsimp only at hs
      cases hr : s.objs[r]? with
      | none => rw [hr] at hs; cases hs
      | some o =>
        rw [hr] at hs
        rw [← Outcome.ok.inj hs]
        exact List.length_set

end Verif.Registry

namespace Verif.Firewall
open Verif.Registry (total total_set total_append)
variable {D : Type}

/-- What the thread of a call may still do, with the consumption of the messages it flushes. -/
def callCost (c : Call) : Nat := if c.live then (4 - c.sections) + (if c.sections ≤ 2 then 3 * bufMax else 0) else 0

/-- What the firewall may still do. -/
def fwCost (f : Fw D) : Nat := (if f.dropAll then 1 else 0) + total callCost f.calls

theorem cost_latch {f f' : Fw D} (hs : step f .latch = .ok f') : f'.out = f.out ∧ fwCost f' + 1 = fwCost f := by
  rw [step] at hs
  by_cases h : f.dropAll = true ∧ f.dropUntil ≤ f.now
  · rw [if_pos h] at hs
    rw [← Outcome.ok.inj hs]
    refine ⟨rfl, ?_⟩
    rw [fwCost, fwCost, h.1]
    simp
    omega
  · rw [if_neg h] at hs; cases hs

theorem cost_tick {f f' : Fw D} {t : Int} (hs : step f (.tick t) = .ok f') : f'.out = f.out ∧ fwCost f' = fwCost f := by
  rw [step] at hs
  by_cases h : f.now ≤ t
  · rw [if_pos h] at hs; rw [← Outcome.ok.inj hs]; exact ⟨rfl, rfl⟩
  · rw [if_neg h] at hs; cases hs

theorem cost_allow {f f' : Fw D} {k : RunKey} {a : Allowance} (hs : step f (.allow k a) = .ok f') :
    f'.out = f.out ∧ fwCost f' ≤ fwCost f + 6148 := by
  rw [step, setAllowance] at hs
  by_cases h1 : (!keyValid f k) = true
  · rw [if_pos h1] at hs; cases hs
  rw [if_neg h1] at hs
  by_cases h2 : (f.allowances.get? k).isSome = true
  · rw [if_pos h2] at hs
    rw [← Outcome.ok.inj hs]
    refine ⟨rfl, ?_⟩
    rw [fwCost, fwCost, total_append]
    simp [total, callCost]
  · rw [if_neg h2] at hs
    rw [← Outcome.ok.inj hs]
    refine ⟨rfl, ?_⟩
    rw [fwCost, fwCost, total_append]
    simp [total, callCost, bufMax]
    omega

theorem cost_read {f f' : Fw D} {i : Nat} (hs : step f (.read i) = .ok f') : f'.out = f.out ∧ fwCost f' = fwCost f := by
  rw [step] at hs
  cases hc : f.calls[i]? with
  | none => rw [hc] at hs; cases hs
  | some c =>
    rw [hc] at hs
    dsimp only at hs
    by_cases h : c.obs = []
    · rw [if_pos h] at hs; cases hs
    · rw [if_neg h] at hs
      rw [← Outcome.ok.inj hs]
      refine ⟨rfl, ?_⟩
      have := total_set callCost { c with obs := c.obs.tail } hc
      have e : callCost { c with obs := c.obs.tail } = callCost c := rfl
      rw [e] at this
      rw [fwCost, fwCost]
      dsimp only
      omega

theorem cost_step {f f' : Fw D} (h : Inv f) {i : Nat} (hs : step f (.step i) = .ok f') :
    ∃ new, f'.out = f.out ++ new ∧ fwCost f' + 3 * new.length + 1 ≤ fwCost f := by
  rw [step, stateStep] at hs
  cases hc : f.calls[i]? with
  | none => rw [hc] at hs; cases hs
  | some c =>
    rw [hc] at hs
    dsimp only at hs
    by_cases hl : c.live = true
    · rw [hl] at hs
      simp only [Bool.not_true, Bool.false_eq_true, if_false] at hs
      have hold : callCost c = (4 - c.sections) + (if c.sections ≤ 2 then 3 * bufMax else 0) := by rw [callCost, if_pos hl]
      by_cases h0 : c.sections = 0
      · rw [if_pos h0] at hs
        rw [← Outcome.ok.inj hs]
        refine ⟨[], by simp, ?_⟩
        have := total_set callCost { c with sections := 1, loaded := (f.allowances.get? c.key).getD ⟨0, 0, 0⟩ } hc
        rw [hold, h0] at this
        simp [callCost, hl, bufMax] at this
        rw [fwCost, fwCost, List.length_nil]
        dsimp only
        omega
      rw [if_neg h0] at hs
      by_cases h1 : c.sections = 1
      · rw [if_pos h1] at hs
        by_cases hg : c.loaded.buf ≤ f.now ∧ c.obs.length < obsCap
        · rw [if_pos hg] at hs
          rw [← Outcome.ok.inj hs]
          refine ⟨[], by simp, ?_⟩
          have := total_set callCost { c with sections := 2, obs := c.obs ++ [buffering] } hc
          rw [hold, h1] at this
          simp [callCost, hl, bufMax] at this
          rw [fwCost, fwCost, List.length_nil]
          dsimp only
          omega
        · rw [if_neg hg] at hs; cases hs
      rw [if_neg h1] at hs
      by_cases h2 : c.sections = 2
      · rw [if_pos h2] at hs
        by_cases hg : c.loaded.start ≤ f.now ∧ c.obs.length < obsCap
        · rw [if_pos hg] at hs
          rw [← Outcome.ok.inj hs]
          refine ⟨(f.buffer.get? c.key).getD [], rfl, ?_⟩
          have hb : ((f.buffer.get? c.key).getD []).length ≤ bufMax := by
            cases hb : f.buffer.get? c.key with
            | none => exact Nat.zero_le _
            | some b => exact (h.buffered _ _ hb).2.1
          have := total_set callCost { c with sections := 3, obs := c.obs ++ [forwarding] } hc
          rw [hold, h2] at this
          simp [callCost, hl, bufMax] at this
          rw [bufMax] at hb
          show (if f.dropAll then 1 else 0) + total callCost (f.calls.set i { c with live := true, sections := 3, obs := c.obs ++ [forwarding] }) +
            3 * ((f.buffer.get? c.key).getD []).length + 1 ≤ fwCost f
          rw [fwCost]
          omega
        · rw [if_neg hg] at hs; cases hs
      rw [if_neg h2] at hs
      by_cases h3 : c.sections = 3
      · rw [if_pos h3] at hs
        by_cases hg : c.loaded.stop ≤ f.now ∧ c.obs.length < obsCap
        · rw [if_pos hg] at hs
          rw [← Outcome.ok.inj hs]
          refine ⟨[], by simp, ?_⟩
          have := total_set callCost { c with sections := 4, obs := c.obs ++ [stopped] } hc
          rw [hold, h3] at this
          simp [callCost, hl] at this
          rw [fwCost, fwCost, List.length_nil]
          dsimp only
          omega
        · rw [if_neg hg] at hs; cases hs
      · rw [if_neg h3] at hs; cases hs
    · rw [Bool.not_eq_true] at hl
      rw [hl] at hs
      cases hs

end Verif.Firewall

namespace Verif.Node
open Verif.Registry (total total_set total_append total_lt total_one total_mono)
open Verif.Props.Registry (work task_kept)
variable {D : Type} {pc : Int} {G : List Int}

/-- What the consumers of the queues of a protocol may still do. -/
def queueCost (pc : Int) (G : List Int) (s : Sys D) : Nat := total (fun g => todo s (pc, g)) G

/-- What a runner may still do, with its allowance and what it leads to in the registry. -/
def runnerCost (u : Runner) : Nat := (9 - u.pos) * 10000

/-- What a node may still do, with what follows inside of new runs. -/
def nodeCost (pc : Int) (G : List Int) (s : Sys D) : Nat :=
  Firewall.fwCost s.fw + total runnerCost s.runners + work s.reg + queueCost pc G s + 32 * (s.runners.length - s.reg.objs.length)

theorem queueCost_same {s s' : Sys D} (h1 : s'.queues = s.queues) (h2 : s'.cons = s.cons) : queueCost pc G s' = queueCost pc G s := by
  rw [queueCost, queueCost]
  congr 1
  funext g
  rw [todo, todo, h1, h2]

theorem queueCost_add (hG : G.Nodup) (s : Sys D) {p : Int × Int} {l : List (Message D)} (hl : l.length = (s.queues p).length + 1) :
    queueCost pc G { s with queues := update s.queues p l } ≤ queueCost pc G s + 3 := by
  by_cases hp : p.1 = pc
  · refine total_one hG (a := p.2) (fun g hg => ?_) ?_
    · rw [todo, todo]
      dsimp only
      rw [update, if_neg (fun e => hg (by rw [← e]))]
    · have : p = (pc, p.2) := by rw [← hp]
      rw [todo, todo]
      dsimp only
      rw [update, ← this, if_pos rfl, hl]
      omega
  · refine Nat.le_trans (total_mono fun g _ => ?_) (Nat.le_add_right _ _)
    rw [todo, todo]
    dsimp only
    rw [update, if_neg (fun e => hp (by rw [← e]))]

theorem queueCost_receive (hG : G.Nodup) (s : Sys D) (m : Message D) : queueCost pc G (receiveMsg s m) ≤ queueCost pc G s + 3 := by
  rw [receiveMsg]
  by_cases h1 : (!(decide (0 ≤ m.op) && decide (m.op < s.stages m.pc))) = true
  · rw [if_pos h1]; omega
  rw [if_neg h1]
  by_cases h2 : (s.queues (m.pc, m.rcpt)).length < rcvBufMax
  · rw [if_pos h2]; exact queueCost_add (pc := pc) hG s (by rw [List.length_append]; rfl)
  · rw [if_neg h2]; omega

theorem queueCost_foldl (hG : G.Nodup) (ms : List (Message D)) (s : Sys D) :
    queueCost pc G (ms.foldl receiveMsg s) ≤ queueCost pc G s + 3 * ms.length := by
  induction ms generalizing s with
  | nil => exact Nat.le_refl _
  | cons m ms ih =>
    have h1 := ih (receiveMsg s m)
    have h2 := queueCost_receive (pc := pc) hG s m
    rw [List.foldl_cons, List.length_cons]
    omega

theorem fw_frame {s s' : Sys D} {e : Firewall.Ev D} (hs : fwEvent s e = .ok s') : ∃ f, Firewall.step s.fw e = .ok f ∧ s'.fw = f ∧
    s'.reg = s.reg ∧ s'.runners = s.runners ∧ ∀ new, f.out = s.fw.out ++ new → G.Nodup → queueCost pc G s' ≤ queueCost pc G s + 3 * new.length := by
  rw [fwEvent, Outcome.bind_eq_ok] at hs
  obtain ⟨f, h1, h2⟩ := hs
  obtain ⟨qs, h3, _⟩ := foldl_receiveMsg { s with fw := f } (f.out.drop s.fw.out.length)
  refine ⟨f, h1, ?_, ?_, ?_, ?_⟩
  · rw [← Outcome.ok.inj h2, h3]
  · rw [← Outcome.ok.inj h2, h3]
  · rw [← Outcome.ok.inj h2, h3]
  · intro new hn hG
    have := queueCost_foldl (pc := pc) hG (f.out.drop s.fw.out.length) { s with fw := f }
    rw [Outcome.ok.inj h2, hn, List.drop_left] at this
    have e : queueCost pc G { s with fw := f } = queueCost pc G s := queueCost_same rfl rfl
    rw [e] at this
    exact this

/-- The measured events make the bound smaller, even with 30 more for each new run. -/
theorem cost_step {s s' : Sys D} (hG : G.Nodup) (hF : Firewall.Inv s.fw) (hO : Registry.ObsInv s.reg) (hQ : QInv s)
    (hle : s'.reg.objs.length ≤ s'.runners.length)
    (hb : ∀ q, s.cons q ≠ .idle ∨ s.queues q ≠ [] → ∃ g ∈ G, q = (pc, g)) {e : Ev D}
    (he : match e with | .latch => True | .fwStep _ => True | .cons _ => True | .task _ => True | .runner _ => True | _ => False)
    (hs : step s e = .ok s') : nodeCost pc G s' + 30 * (s'.reg.objs.length - s.reg.objs.length) + 1 ≤ nodeCost pc G s := by
  cases e with
  | tick t => exact he.elim
  | net m => exact he.elim
  | finish r => exact he.elim
  | launch k a => exact he.elim
  | latch =>
    obtain ⟨f, h1, h2, h3, h4, h5⟩ := fw_frame (pc := pc) (G := G) hs
    obtain ⟨h6, h7⟩ := Firewall.cost_latch h1
    have := h5 [] (by rw [h6, List.append_nil]) hG
    rw [List.length_nil] at this
    rw [nodeCost, nodeCost, h2, h3, h4]
    omega
  | fwStep i =>
    obtain ⟨f, h1, h2, h3, h4, h5⟩ := fw_frame (pc := pc) (G := G) hs
    obtain ⟨new, h6, h7⟩ := Firewall.cost_step hF h1
    have := h5 new h6 hG
    rw [nodeCost, nodeCost, h2, h3, h4]
    omega
  | task i =>
    rw [step, regEvent, Outcome.bind_eq_ok] at hs
    obtain ⟨r, h1, h2⟩ := hs
    rw [← Outcome.ok.inj h2]
    have h3 := (task_kept hO h1).2
    have h4 := Registry.task_objs h1
    have e : queueCost pc G { s with reg := r } = queueCost pc G s := queueCost_same rfl rfl
    rw [nodeCost, nodeCost, e]
    dsimp only
    rw [h4]
    omega
  | cons q =>
    rw [step] at hs
    have hbusy : s.cons q ≠ .idle ∨ s.queues q ≠ [] := by
      by_cases e1 : s.cons q = .idle
      · right
        intro e2
        rw [consume, e1] at hs
        dsimp only at hs
        rw [e2] at hs
        cases hs
      · exact .inl e1
    obtain ⟨g, hg, hq⟩ := hb q hbusy
    obtain ⟨s1, hs1, _, hlt⟩ := consume_ok hQ q hbusy
    have := Outcome.ok.inj (hs1.symm.trans hs)
    subst this
    have hqc : queueCost pc G s1 < queueCost pc G s := by
      refine total_lt (fun x _ => ?_) hg (by rw [← hq]; exact hlt)
      by_cases hx : (pc, x) = q
      · rw [hx]; omega
      · rw [todo, todo]
        cases step_shape (e := .cons q) hs with
        | fw he => cases he
        | reg he => cases he
        | take => dsimp only; rw [update, update, if_neg hx, if_neg hx]
        | give => dsimp only; rw [update, if_neg hx]
        | delete => dsimp only; rw [update, if_neg hx]
        | find => dsimp only; rw [update, if_neg hx]
    cases step_shape (e := .cons q) hs with
    | fw he => cases he
    | reg he => cases he
    | take =>
      rw [nodeCost, nodeCost]
      dsimp only
      omega
    | give =>
      rw [nodeCost, nodeCost]
      dsimp only
      omega
    | delete _ _ _ hr =>
      obtain ⟨w1, w2⟩ := Registry.work_delete hr
      rw [nodeCost, nodeCost]
      dsimp only
      rw [w1, w2]
      omega
    | find _ _ _ hr =>
      rcases Registry.work_ensure hr with w1 | ⟨w1, w2⟩
      · rw [nodeCost, nodeCost]
        dsimp only
        subst w1
        omega
      · rw [nodeCost, nodeCost]
        dsimp only at hle ⊢
        rw [w1, w2]
        rw [w2] at hle
        omega
  | runner j =>
    have hset : ∀ {u u' : Runner}, s.runners[j]? = some u → u.pos < 9 → u'.pos = u.pos + 1 →
        total runnerCost (s.runners.set j u') + 10000 = total runnerCost s.runners := by
      intro u u' hu hp hp'
      have := total_set runnerCost u' hu
      rw [runnerCost, runnerCost, hp'] at this
      omega
    rw [step, runnerStep] at hs
    cases hu : s.runners[j]? with
    | none => rw [hu] at hs; cases hs
    | some u =>
      rw [hu] at hs
      dsimp only at hs
      have at_ : ∀ {t t' : Sys D} {k : RunKey} {re : Registry.Ev}, regEventAt t k re = .ok t' →
          ∃ r, Registry.step t.reg re = .ok r ∧ t' = { t with reg := r } := by
        intro t t' k re h
        rw [regEventAt] at h
        by_cases hv : Firewall.keyValid t.fw k = true
        · rw [if_pos hv, regEvent, Outcome.bind_eq_ok] at h
          obtain ⟨r, h1, h2⟩ := h
          exact ⟨r, h1, (Outcome.ok.inj h2).symm⟩
        · rw [if_neg hv] at h; cases h
      by_cases h0 : u.pos = 0
      · rw [if_pos h0] at hs
        obtain ⟨r, h1, h2⟩ := at_ hs
        subst h2
        obtain ⟨w1, w2⟩ := Registry.work_obs hO h1
        have hr := hset (u' := { u with pos := u.pos + 1, chan := s.reg.chans.length }) hu (by omega) rfl
        rw [nodeCost, nodeCost]
        have e : queueCost pc G { s with runners := s.runners.set j { u with pos := u.pos + 1, chan := s.reg.chans.length }, reg := r } =
          queueCost pc G s := queueCost_same rfl rfl
        dsimp only at e ⊢
        rw [w1, w2, List.length_set, e]
        omega
      rw [if_neg h0] at hs
      by_cases h1 : u.pos = 1
      · rw [if_pos h1] at hs
        obtain ⟨f, g1, g2, g3, g4, g5⟩ := fw_frame (pc := pc) (G := G) hs
        obtain ⟨g6, g7⟩ := Firewall.cost_allow g1
        have g8 := g5 [] (by rw [g6, List.append_nil]) hG
        have hr := hset (u' := { u with pos := u.pos + 1, call := s.fw.calls.length }) hu (by omega) rfl
        have e : queueCost pc G { s with runners := s.runners.set j { u with pos := u.pos + 1, call := s.fw.calls.length } } =
          queueCost pc G s := queueCost_same rfl rfl
        rw [List.length_nil] at g8
        rw [nodeCost, nodeCost, g2, g3, g4]
        dsimp only at e g8 g7 ⊢
        rw [e] at g8
        rw [List.length_set]
        omega
      rw [if_neg h1] at hs
      have plain : ∀ {s1 : Sys D} {r : Registry.Reg}, s1 = { s with runners := s.runners.set j { u with pos := u.pos + 1 }, reg := r } → u.pos < 9 →
          s1.reg.objs.length ≤ s1.runners.length → (r = s.reg ∨ (work r = work s.reg ∧ r.objs = s.reg.objs) ∨
            (work r = work s.reg + 1 ∧ r.objs.length = s.reg.objs.length + 1)) →
          nodeCost pc G s1 + 30 * (s1.reg.objs.length - s.reg.objs.length) + 1 ≤ nodeCost pc G s := by
        intro s1 r e hp hle hr
        subst e
        have hr1 := hset (u' := { u with pos := u.pos + 1 }) hu hp rfl
        have e : queueCost pc G { s with runners := s.runners.set j { u with pos := u.pos + 1 }, reg := r } =
          queueCost pc G s := queueCost_same rfl rfl
        rw [nodeCost, nodeCost]
        dsimp only at e hle ⊢
        rw [List.length_set] at hle ⊢
        rw [e]
        rcases hr with rfl | ⟨w1, w2⟩ | ⟨w1, w2⟩
        · omega
        · rw [w1, w2]; omega
        · rw [w1, w2]; omega
      by_cases h3 : u.pos = 3
      · rw [if_pos h3] at hs
        by_cases ht : u.allow.start ≤ s.fw.now
        · rw [if_pos ht] at hs
          exact plain (r := s.reg) (Outcome.ok.inj hs).symm (by omega) hle (.inl rfl)
        · rw [if_neg ht] at hs; cases hs
      rw [if_neg h3] at hs
      by_cases h4 : u.pos = 4
      · rw [if_pos h4] at hs
        obtain ⟨r, g1, g2⟩ := at_ hs
        exact plain g2 (by omega) hle ((Registry.work_ensure g1).imp id .inr)
      rw [if_neg h4] at hs
      by_cases h5 : u.pos = 5
      · rw [if_pos h5, regEvent, Outcome.bind_eq_ok] at hs
        obtain ⟨r, g1, g2⟩ := hs
        exact plain (Outcome.ok.inj g2).symm (by omega) hle (.inr (.inl (Registry.work_recv g1)))
      rw [if_neg h5] at hs
      by_cases h2 : u.pos = 2 ∨ u.pos = 6 ∨ u.pos = 7
      · rw [if_pos h2] at hs
        obtain ⟨f, g1, g2, g3, g4, g5⟩ := fw_frame (pc := pc) (G := G) hs
        obtain ⟨g6, g7⟩ := Firewall.cost_read g1
        have g8 := g5 [] (by rw [g6, List.append_nil]) hG
        have hr := hset (u' := { u with pos := u.pos + 1 }) hu (by omega) rfl
        have e : queueCost pc G { s with runners := s.runners.set j { u with pos := u.pos + 1 } } = queueCost pc G s := queueCost_same rfl rfl
        rw [List.length_nil] at g8
        rw [nodeCost, nodeCost, g2, g3, g4]
        dsimp only at e g8 g7 ⊢
        rw [e] at g8
        rw [List.length_set]
        omega
      rw [if_neg h2] at hs
      by_cases h8 : u.pos = 8
      · rw [if_pos h8, sendSignal] at hs
        have e : queueCost pc G { s with runners := s.runners.set j { u with pos := u.pos + 1 } } = queueCost pc G s := queueCost_same rfl rfl
        have hr := hset (u' := { u with pos := u.pos + 1 }) hu (by omega) rfl
        dsimp only at hs
        by_cases hn : -u.key.pc < 0
        · rw [if_pos hn] at hs
          by_cases hfull : (s.queues (-(-u.key.pc), u.key.gidx)).length < rcvBufMax
          · rw [if_pos hfull] at hs
            have := queueCost_add (pc := pc) hG { s with runners := s.runners.set j { u with pos := u.pos + 1 } } (p := (-(-u.key.pc), u.key.gidx))
              (l := s.queues (-(-u.key.pc), u.key.gidx) ++ [⟨0, -u.key.pc, u.key.gidx, u.key.runId, 0, s.nil⟩]) (by rw [List.length_append]; rfl)
            dsimp only at this
            rw [e] at this
            rw [← Outcome.ok.inj hs, nodeCost, nodeCost]
            dsimp only
            rw [List.length_set]
            omega
          · rw [if_neg hfull] at hs; cases hs
        · rw [if_neg hn] at hs
          have := queueCost_receive (pc := pc) hG { s with runners := s.runners.set j { u with pos := u.pos + 1 } }
            ⟨0, -u.key.pc, u.key.gidx, u.key.runId, 0, s.nil⟩
          rw [e] at this
          obtain ⟨qs, e1, _⟩ := receiveMsg_eq { s with runners := s.runners.set j { u with pos := u.pos + 1 } }
            ⟨0, -u.key.pc, u.key.gidx, u.key.runId, 0, s.nil⟩
          have hs := (Outcome.ok.inj hs).symm
          rw [← hs] at this
          rw [e1] at hs
          rw [nodeCost]
          have a1 : s'.fw = s.fw := by rw [hs]
          have a2 : s'.reg = s.reg := by rw [hs]
          have a3 : s'.runners = s.runners.set j { u with pos := u.pos + 1 } := by rw [hs]
          rw [a1, a2, a3, List.length_set, nodeCost]
          omega
      · rw [if_neg h8] at hs; cases hs

theorem cost_tick {s s' : Sys D} (hG : G.Nodup) {t : Int} (hs : step s (.tick t) = .ok s') : nodeCost pc G s' ≤ nodeCost pc G s ∧ s'.reg = s.reg := by
  obtain ⟨f, h1, h2, h3, h4, h5⟩ := fw_frame (pc := pc) (G := G) hs
  obtain ⟨h6, h7⟩ := Firewall.cost_tick h1
  have := h5 [] (by rw [h6, List.append_nil]) hG
  rw [List.length_nil] at this
  rw [nodeCost, nodeCost, h2, h3, h4]
  exact ⟨by omega, rfl⟩

theorem cost_finish {s s' : Sys D} {r : Nat} (hs : step s (.finish r) = .ok s') : nodeCost pc G s' = nodeCost pc G s + 2 ∧
    s'.reg.objs.length = s.reg.objs.length := by
  rw [step, regEvent, Outcome.bind_eq_ok] at hs
  obtain ⟨x, h1, h2⟩ := hs
  rw [← Outcome.ok.inj h2]
  obtain ⟨w1, w2⟩ := Registry.work_finish h1
  have e : queueCost pc G { s with reg := x } = queueCost pc G s := queueCost_same rfl rfl
  rw [nodeCost, nodeCost, e]
  dsimp only
  rw [w1, w2]
  exact ⟨by omega, rfl⟩

end Verif.Node

namespace Verif.Program
open Verif.Prot Verif.Dto Verif.Dss Verif.Dkg Verif.Tables Verif.Signode Verif.Props Verif.Spec.Prot Verif.Spec.Program
open Verif.Registry (lt_of_some total total_set total_append)
variable {K : Type} {c : Cfg K} {W : Message Dto → Prop}

/-- What the stepping thread of a run may still do, with the notification of its observers. -/
def runCost (u : Run Dto Obj (Data K)) : Nat :=
  match u.phase with
  | .fresh => 28
  | .started => 27
  | .staged => 2 * (11 - u.state).toNat + 4
  | .pausing => 2 * (11 - u.state).toNat + 3
  | .done => 0

/-- What a request may still do, with its runners. -/
def jobCost (guests : List Int) (b : JobSt) : Nat :=
  let left := (guests.filter fun g => decide (g ∉ b.done)).length
  let n := guests.length
  match b.pc with
  | .registering => left + 2 * n + 5 + n * 90032
  | .launching => 2 * n + 4 + n * 90032
  | .waiting => 2 * n + 3
  | .deregistering => left + n + 2
  | .printing => left + 1
  | .ended => 0

/-- What the program may still do by itself. -/
def cost (c : Cfg K) (s : Sys K) : Nat :=
  Node.nodeCost 1 c.guests s.node + total runCost s.runs + total (jobCost c.guests) s.jobs

theorem busy_guest {s : Sys K} (h : Known c W s) (q : Int × Int) (hq : s.node.cons q ≠ .idle ∨ s.node.queues q ≠ []) :
    ∃ g ∈ c.guests, q = (1, g) := by
  have key : ∀ k : RunKey, (∃ u ∈ s.node.runners, u.key = k) → q = (k.pc, k.gidx) → ∃ g ∈ c.guests, q = (1, g) := by
    rintro k ⟨u, hu, hk⟩ e
    obtain ⟨b, _, _, g, hg, e1⟩ := h.p.j.owner u hu
    rw [← hk, e1] at e
    exact ⟨g, hg, e⟩
  have seq : ∀ m ∈ Node.seq s.node q, ∃ g ∈ c.guests, q = (1, g) := by
    intro m hm
    obtain ⟨_, h2⟩ := (h.p.n.good ⟨0, 0, ""⟩).q.at_ q m hm
    by_cases hn : m.pc < 0
    · obtain ⟨u, hu, _, hk⟩ := (h.p.n.good ⟨0, 0, ""⟩).q.sig q m hm hn
      exact key _ ⟨u, hu, hk⟩ h2
    · obtain ⟨u, hu, _, hk⟩ := h.p.n.orig.way q m hm hn
      rw [Node.target_nonneg hn] at h2
      exact key _ ⟨u, hu, hk⟩ h2
  cases hc : s.node.cons q with
  | got m => exact seq m (by rw [Node.seq, hc]; exact List.mem_cons_self ..)
  | found m =>
    obtain ⟨o, ho, hk⟩ := h.p.f q m hc
    obtain ⟨u, hu, _, huk⟩ := h.p.n.orig.obj _ o ho
    exact key m.key ⟨u, hu, huk.trans hk⟩ (h.loc q m hc)
  | idle =>
    cases hqq : s.node.queues q with
    | nil => exact absurd hqq (hq.resolve_left fun x => x hc)
    | cons m ms => exact seq m (by rw [Node.seq, hc, hqq]; exact List.mem_cons_self ..)

/-- There are not more runs than runners. -/
theorem objs_le {s : Sys K} (h : Whole s) : s.node.reg.objs.length ≤ s.node.runners.length := by
  have hn : (s.node.reg.objs.map Registry.Obj.key).Nodup := by
    rw [List.nodup_iff_injective_getElem]
    intro i j e
    have hi : i.1 < s.node.reg.objs.length := Nat.lt_of_lt_of_eq i.2 (List.length_map _)
    have hj : j.1 < s.node.reg.objs.length := Nat.lt_of_lt_of_eq j.2 (List.length_map _)
    dsimp only at e
    rw [List.getElem_map, List.getElem_map] at e
    exact Fin.ext (h.one (List.getElem?_eq_getElem hi) (List.getElem?_eq_getElem hj) e.symm)
  have hsub : s.node.reg.objs.map Registry.Obj.key ⊆ s.node.runners.map Node.Runner.key := by
    intro k hk
    obtain ⟨o, ho, rfl⟩ := List.mem_map.1 hk
    obtain ⟨r, hr⟩ := List.mem_iff_getElem?.1 ho
    obtain ⟨u, hu, _, e⟩ := h.orig.obj r o hr
    exact List.mem_map.2 ⟨u, hu, e⟩
  have := (List.subperm_of_subset hn hsub).length_le
  rwa [List.length_map, List.length_map] at this

theorem runs_cost {n : Node.Sys Dto} {s : Sys K} (hlen : s.runs.length = s.node.reg.objs.length) :
    total runCost (s.runs ++ (n.reg.objs.drop s.runs.length).map fun o =>
        newRun Dto Obj (newData (c.gen o.key.gidx s.runs.length)) n.fw.now) =
      total runCost s.runs + 28 * (n.reg.objs.length - s.node.reg.objs.length) := by
  rw [total_append, hlen, ← List.length_drop]
  generalize n.reg.objs.drop s.node.reg.objs.length = l
  congr 1
  induction l with
  | nil => rfl
  | cons o l ih =>
    rw [List.map_cons, total, ih, List.length_cons]
    have : runCost (newRun Dto Obj (newData (c.gen o.key.gidx s.node.reg.objs.length)) n.fw.now) = 28 := rfl
    rw [this]; omega

/-- What the node and the runs may still do gets less, when only guests have messages in their queues. -/
theorem cost_node {pc : Int} {s s' : Sys K} (hgn : c.guests.Nodup) (h : Whole s)
    (hb : ∀ q, s.node.cons q ≠ .idle ∨ s.node.queues q ≠ [] → ∃ g ∈ c.guests, q = (pc, g)) {e : Node.Ev Dto} (he : Measured e)
    (hs : nodeEvent c s e = .ok s') (hle : s'.node.reg.objs.length ≤ s'.node.runners.length) :
    Node.nodeCost pc c.guests s'.node + total runCost s'.runs + 1 ≤ Node.nodeCost pc c.guests s.node + total runCost s.runs ∧ s'.jobs = s.jobs := by
  obtain ⟨n, h1, rfl⟩ := node_ok hs
  have hg := h.good ⟨0, 0, ""⟩
  have h2 := Node.cost_step hgn hg.r.fw h.orig.obs hg.q hle hb (by cases e <;> exact he) h1
  have h3 := runs_cost (c := c) (n := n) h.len
  dsimp only at h2 h3 ⊢
  rw [h3]
  exact ⟨by omega, rfl⟩

/-- The stepping thread has less to do after each of its sections, and the last one is enough to pay for the observers. -/
theorem cost_moves {cf : Conf Dto Obj (Data K)} (hlen : cf.stages.length ≤ 12) {t : Int} {u u' : Run Dto Obj (Data K)} (hinv : Prot.Inv cf u)
    (hm : Moves cf { u with now := t } u') : runCost u' + 1 ≤ runCost u ∧ (u'.phase = .done → runCost u' + 3 ≤ runCost u) := by
  cases hm with
  | start a1 a2 a3 _ =>
    dsimp only at a1
    rw [runCost, runCost, a1, a2]
    exact ⟨by dsimp only; omega, nofun⟩
  | enter a1 a2 a3 _ =>
    dsimp only at a1 a3
    rcases a1 with ⟨a1, _⟩ | ⟨a1, _⟩
    · have := (hinv.fresh (.inr a1)).1
      rw [runCost, runCost, a1, a2, a3, this]
      exact ⟨by decide, nofun⟩
    · obtain ⟨p1, p2, _⟩ := hinv.pausing a1
      rw [runCost, runCost, a1, a2, a3]
      exact ⟨by dsimp only; omega, nofun⟩
  | pause a1 _ _ a2 a3 _ =>
    dsimp only at a1 a3
    rw [runCost, runCost, a1, a2, a3]
    exact ⟨by dsimp only; omega, nofun⟩
  | finish a1 a4 a2 a3 _ =>
    dsimp only at a1 a3
    rcases a1 with ⟨a1, _⟩ | ⟨a1, _⟩
    · rw [runCost, runCost, a1, a2]
      exact ⟨by dsimp only; omega, fun _ => by dsimp only; omega⟩
    · rw [runCost, runCost, a1, a2]
      exact ⟨by dsimp only; omega, fun _ => by dsimp only; omega⟩

/-- A section of the r-th run has less to do. -/
theorem cost_set {s : Sys K} {r : Nat} {u u' : Run Dto Obj (Data K)} (hr : s.runs[r]? = some u) {outs : Outputs Output}
    (h : runCost u' + 1 ≤ runCost u ∧ (u'.phase = .done → runCost u' + 3 ≤ runCost u)) :
    total runCost (s.runs.set r u') + 1 ≤ total runCost s.runs ∧
    (phaseOf { s with runs := s.runs.set r u', outs := outs } r = some .done → total runCost (s.runs.set r u') + 3 ≤ total runCost s.runs) := by
  have hset := total_set runCost u' hr
  have hph : phaseOf { s with runs := s.runs.set r u', outs := outs } r = some u'.phase := by
    rw [phaseOf]
    dsimp only
    rw [List.getElem?_set_self (lt_of_some hr)]
    rfl
  refine ⟨by omega, fun hd => ?_⟩
  have := h.2 (Option.some.inj (hph.symm.trans hd))
  omega

theorem cost_thread {s s' : Sys K} (h : PInv c W s) {r : Nat} (hs : runEvent c s r .thread = .ok s') :
    total runCost s'.runs + 1 ≤ total runCost s.runs ∧ (phaseOf s' r = some .done → total runCost s'.runs + 3 ≤ total runCost s.runs) := by
  obtain ⟨u, o, u', outs, hr, ho, hx, _, rfl⟩ := run_ok hs
  obtain ⟨_, _, b, _, hinv, h3⟩ := section_moves h (.inl rfl) ho hr hx
  rcases h3 with ⟨_, hm⟩ | ⟨h3, _⟩
  · exact cost_set hr (cost_moves (Nat.le_of_eq rfl) hinv hm)
  · exact absurd rfl h3

theorem cost_launch {j : Job} {gs : List Int} {s s' : Sys K} (hlen : s.runs.length = s.node.reg.objs.length)
    (hs : launchAll c s j gs = .ok s') : Node.nodeCost 1 c.guests s'.node ≤ Node.nodeCost 1 c.guests s.node + gs.length * 90032 := by
  induction gs generalizing s with
  | nil => rw [launchAll] at hs; rw [← Outcome.ok.inj hs]; exact Nat.le_refl _
  | cons g gs ih =>
    rw [launchAll, Outcome.bind_eq_ok] at hs
    obtain ⟨s1, h1, h2⟩ := hs
    obtain ⟨n, g1, rfl⟩ := node_ok h1
    rw [Node.step] at g1
    have g1 := (Outcome.ok.inj g1).symm
    subst g1
    have := ih (by dsimp only; rw [List.length_append, List.length_map, List.length_drop]; omega) h2
    dsimp only at this
    refine Nat.le_trans this ?_
    rw [List.length_cons, Node.nodeCost, Node.nodeCost]
    dsimp only
    have e : Node.queueCost 1 c.guests { s.node with runners := s.node.runners ++ [⟨⟨1, g, jobId j⟩, c.allow j, 0, 0, 0⟩] } =
      Node.queueCost 1 c.guests s.node := Node.queueCost_same rfl rfl
    rw [e, total_append, List.length_append, List.length_singleton]
    simp only [total, Node.runnerCost]
    omega

theorem filter_less {l done : List Int} {g : Int} (hg : g ∈ l) (hd : g ∉ done) :
    (l.filter fun x => decide (x ∉ g :: done)).length < (l.filter fun x => decide (x ∉ done)).length := by
  have h1 : ∀ l : List Int, (l.filter fun x => decide (x ∉ g :: done)).length ≤ (l.filter fun x => decide (x ∉ done)).length := by
    intro l
    refine (List.Sublist.length_le (List.monotone_filter_right l fun x hx => ?_))
    rw [decide_eq_true_eq] at hx ⊢
    exact fun h => hx (List.mem_cons_of_mem _ h)
  induction l with
  | nil => cases hg
  | cons a l ih =>
    rw [List.filter_cons, List.filter_cons]
    by_cases e : a = g
    · subst e
      rw [if_neg (by simp), if_pos (by simpa using hd), List.length_cons]
      exact Nat.lt_succ_of_le (h1 l)
    · have := ih ((List.mem_cons.1 hg).resolve_left fun x => e x.symm)
      by_cases ha : a ∈ done
      · rw [if_neg (by simp [ha]), if_neg (by simp [ha])]; exact this
      · rw [if_pos (by simpa [e] using ha), if_pos (by simpa using ha), List.length_cons, List.length_cons]
        exact Nat.succ_lt_succ this

/-- Each event that happens by itself makes the bound smaller. -/
theorem cost_own {s s' : Sys K} (hgn : c.guests.Nodup) (h : Known c W s) (h' : Known c W s') {e : Ev} (he : own e = true)
    (hs : step c s e = .ok s') : cost c s' + 1 ≤ cost c s := by
  cases step_kind hs with
  | node h1 _ _ hm f =>
    obtain ⟨a1, a2⟩ := cost_node hgn h.whole (busy_guest h) (hm he) h1 (by have := objs_le h'.whole; exact this)
    rw [cost, cost]
    dsimp only
    rw [a2]
    omega
  | @thread r _ h1 h2 =>
    obtain ⟨u, o, u', outs, _, _, _, _, e1⟩ := run_ok h1
    have h3 := (cost_thread h.p h1).1
    have en : s'.node = s.node := by rw [e1]
    have ej : s'.jobs = s.jobs := by rw [e1]
    rw [cost, cost, en, ej]
    omega
  | @last r s1 _ h1 h2 h3 =>
    obtain ⟨u, o, u', outs, _, _, _, _, e1⟩ := run_ok h1
    have h4 := (cost_thread h.p h1).2 h2
    have en : s1.node = s.node := by rw [e1]
    have ej : s1.jobs = s.jobs := by rw [e1]
    obtain ⟨n, g1, rfl⟩ := node_ok h3
    obtain ⟨g2, g3⟩ := Node.cost_finish (pc := 1) (G := c.guests) g1
    have hl1 : s1.runs.length = s1.node.reg.objs.length := by
      rw [en, ← h.p.u.len, e1]; exact List.length_set
    have h5 := runs_cost (c := c) (n := n) hl1
    rw [g3, Nat.sub_self] at h5
    rw [cost, cost]
    dsimp only at h5 ⊢
    rw [h5, g2, en, ej]
    omega
  | @give q m s1 _ hq h1 h2 =>
    have hg := give_ok h.p hq
    have hl1 := linv_run h.p h.l (.inr ⟨m, rfl, hg⟩) h1 (fun x => (by cases x))
    obtain ⟨hu, e1, e2, e3, e4⟩ := uinv_run h.p.n h.p.j h.p.u h.d (.inr ⟨m, rfl, hg⟩) h1
    have hp : PInv c W s1 := ⟨by rw [e1]; exact h.p.n, jinv_same h.p.j e1 e2 e3, hu, by intro q m; rw [e1, e4]; exact h.p.f q m⟩
    have hk : Known c W s1 := ⟨hp, by rw [e2]; exact h.d, hl1, by rw [e1]; exact h.held, by rw [e1]; exact h.made, by rw [e1]; exact h.loc⟩
    obtain ⟨h3, h6⟩ := cost_node hgn hk.whole (busy_guest hk) (e := .cons q) trivial h2 (objs_le h'.whole)
    obtain ⟨u, o, u', outs, hr, ho, hx, _, es⟩ := run_ok h1
    obtain ⟨_, _, b, _, _, h4⟩ := section_moves h.p (.inr ⟨m, rfl, hg⟩) ho hr hx
    rcases h4 with ⟨h4, _⟩ | ⟨_, h4, h5⟩
    · cases h4
    · have hset := total_set runCost u' hr
      rw [runCost, runCost, h4, h5] at hset
      have : cost c s1 = cost c s := by
        rw [cost, cost, e1, e2, es]
        dsimp only
        omega
      have : cost c s' + 1 ≤ cost c s1 := by rw [cost, cost, h6]; omega
      omega
  | @job i g b b' d o hb hrn hc =>
    have hset := total_set (jobCost c.guests) b' hb
    rw [cost, cost]
    dsimp only
    have hle : ∀ l : List Int, (c.guests.filter fun g => decide (g ∉ l)).length ≤ c.guests.length := fun l => List.length_filter_le _ _
    have hlt : jobCost c.guests b' < jobCost c.guests b := by
      rw [jobCost, jobCost]
      rcases hc with ⟨p1, p2, p3, p4, p5⟩ | ⟨p1, p2⟩ | ⟨p1, p2, p3, _⟩ | ⟨p1, p2, p3⟩ | ⟨p1, p2⟩
      · have := filter_less p2 p3
        rw [p1, p4]
        rcases p5 with p5 | p5 | p5 <;> rw [p5] <;> dsimp only <;> omega
      · rw [p1, p2]; dsimp only; omega
      · rw [p1, p2, p3]
        have := hle b.done
        dsimp only; omega
      · rw [p1, p2, p3]
        have := hle []
        dsimp only; omega
      · rw [p1, p2]; dsimp only; omega
    omega
  | @launch i g b s1 hb hpc h1 =>
    obtain ⟨i1, i2, i3, i4, i5⟩ := linv_launch h1
    have h2 := cost_launch h.p.u.len h1
    have hset := total_set (jobCost c.guests) { b with pc := .waiting, runners := (List.range c.guests.length).map (s.node.runners.length + ·) } hb
    rw [cost, cost]
    dsimp only
    rw [i4 h.p.u.len, i5]
    have e1 : jobCost c.guests b = 2 * c.guests.length + 4 + c.guests.length * 90032 := by rw [jobCost, hpc]
    have e2 : jobCost c.guests { b with pc := .waiting, runners := (List.range c.guests.length).map (s.node.runners.length + ·) } =
      2 * c.guests.length + 3 := rfl
    rw [e1, e2] at hset
    omega
  | request => cases he

/-- The passing of time leaves the bound. -/
theorem cost_tick {s s' : Sys K} (hgn : c.guests.Nodup) (hlen : s.runs.length = s.node.reg.objs.length) {t : Int}
    (hs : step c s (.tick t) = .ok s') : cost c s' ≤ cost c s := by
  rw [step] at hs
  obtain ⟨n, h1, rfl⟩ := node_ok hs
  obtain ⟨h2, h3⟩ := Node.cost_tick (pc := 1) hgn h1
  have h4 := runs_cost (c := c) (n := n) hlen
  rw [h3, Nat.sub_self] at h4
  rw [cost, cost]
  dsimp only
  rw [h3, h4]
  omega

end Verif.Program
