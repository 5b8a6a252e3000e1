import Verif.Spec.Console
import Verif.Proofs.Program
import Mathlib.Data.List.Infix

/-! Invariants of the console. -/
namespace Verif.Console
open Verif.Signode Verif.Scan
open Verif.Program (reqs)
open Verif.Spec.Console
variable {K : Type}

/-! ### Words -/

theorem complete_prefix : ∀ t : List Char, complete t <+: t
  | [] => List.prefix_refl _
  | c :: cs => by
    rw [complete]
    split
    · exact List.cons_prefix_cons.2 ⟨rfl, complete_prefix cs⟩
    · exact List.nil_prefix

theorem complete_append (a b : List Char) : complete a <+: complete (a ++ b) := by
  induction a with
  | nil => exact List.nil_prefix
  | cons c cs ih =>
    rw [complete]
    split
    · next h =>
      rw [List.cons_append, complete, if_pos]
      · exact List.cons_prefix_cons.2 ⟨rfl, ih⟩
      · rw [← List.cons_append, List.any_append, h]; rfl
    · exact List.nil_prefix

/-- A text that ends in white space, or nothing at all. -/
inductive Ends : List Char → Prop where
  | nil : Ends []
  | last {c : Char} (h : isSpace c = true) : Ends [c]
  | cons {c d : Char} {cs : List Char} (h : Ends (d :: cs)) : Ends (c :: d :: cs)

theorem complete_ends : ∀ t : List Char, Ends (complete t)
  | [] => .nil
  | c :: cs => by
    have ih := complete_ends cs
    rw [complete]
    split
    · next h =>
      cases hcs : complete cs with
      | nil =>
        refine .last ?_
        rw [List.any_cons, Bool.or_eq_true] at h
        rcases h with h | h
        · exact h
        · cases cs with
          | nil => cases h
          | cons d cs => rw [complete, if_pos h] at hcs; cases hcs
      | cons d l => rw [hcs] at ih; exact .cons ih
    · exact .nil

theorem scan_prefix (b : List Char) : ∀ (t cur : List Char), Ends t → (t = [] → cur = []) → (scanFrom t cur).1 <+: (scanFrom (t ++ b) cur).1
  | [], cur, _, hc => by
    rw [hc rfl, scanFrom, if_pos rfl]; exact List.nil_prefix
  | c :: cs, cur, he, _ => by
    have hcs : Ends cs := by
      cases he with
      | last h => exact .nil
      | cons h => exact h
    rw [List.cons_append, scanFrom, scanFrom]
    split
    · split
      · exact scan_prefix b cs [] hcs fun _ => rfl
      · split
        · exact List.cons_prefix_cons.2 ⟨rfl, scan_prefix b cs [] hcs fun _ => rfl⟩
        · exact List.nil_prefix
    · next hs =>
      refine scan_prefix b cs _ hcs fun e => ?_
      subst e
      cases he with
      | last h => exact absurd h hs

theorem runSigs_prefix {us vs : List String} (h : us <+: vs) : runSigs us <+: runSigs vs := by
  induction hn : us.length using Nat.strongRecOn generalizing us vs with
  | ind n ih =>
    obtain ⟨r, rfl⟩ := h
    match us, hn with
    | [], _ => exact List.nil_prefix
    | [a], _ => exact List.nil_prefix
    | [a, b], _ => exact List.nil_prefix
    | a :: b :: c :: us, hn =>
      exact List.cons_prefix_cons.2 ⟨rfl, ih us.length (by rw [← hn]; simp only [List.length_cons]; omega) (List.prefix_append us r) rfl⟩

theorem scan_any : ∀ (t cur : List Char), (t.any isSpace = true ∨ cur = []) → (scanFrom t cur).2 = true →
    (scanFrom (complete t) cur).1 = (scanFrom t cur).1
  | [], _, _, _ => rfl
  | c :: cs, cur, hs, he => by
    by_cases ha : (c :: cs).any isSpace = true
    · rw [complete, if_pos ha, scanFrom, scanFrom]
      rw [scanFrom] at he
      split
      · next hc =>
        rw [if_pos hc] at he
        split
        · next h1 => rw [if_pos h1] at he; exact scan_any cs [] (.inr rfl) he
        · next h1 =>
          rw [if_neg h1] at he
          split
          · next h2 => rw [if_pos h2] at he; dsimp only at he ⊢; rw [scan_any cs [] (.inr rfl) he]
          · rfl
      · next hc =>
        rw [if_neg hc] at he
        refine scan_any cs _ (.inl ?_) he
        rw [List.any_cons, Bool.or_eq_true] at ha
        exact ha.resolve_left hc
    · have hcur := hs.resolve_left ha
      subst hcur
      rw [complete, if_neg ha, scanFrom, if_pos rfl]
      have none : ∀ (t cur : List Char), ¬ t.any isSpace = true → (scanFrom t cur).2 = true → (scanFrom t cur).1 = [] := by
        intro t
        induction t with
        | nil =>
          intro cur _ h
          rw [scanFrom] at h ⊢
          split at h
          · cases h
          · split at h
            · cases h
            · next h1 h2 => rw [if_neg h1, if_neg h2]
        | cons d t ih =>
          intro cur h1 h2
          rw [List.any_cons, Bool.or_eq_true, not_or] at h1
          rw [scanFrom, if_neg h1.1] at h2 ⊢
          exact ih _ h1.2 h2
      exact (none _ _ ha he).symm

theorem delivered_prefix (s : Sys K) : delivered s <+: readRequests s.text := by
  unfold delivered readRequests
  split
  · exact List.prefix_refl _
  · refine runSigs_prefix ?_
    obtain ⟨r, hr⟩ := complete_prefix s.text
    have := scan_prefix r (complete s.text) [] (complete_ends _) fun _ => rfl
    rw [hr] at this
    exact this

theorem delivered_all (s : Sys K) (h : exhausted s = true) : delivered s = readRequests s.text := by
  unfold delivered readRequests
  split
  · rfl
  · next he =>
    have h2 : (scan s.text).2 = true := by
      unfold exhausted at h
      rw [Bool.or_eq_true] at h
      exact h.resolve_left he
    rw [show (scan (complete s.text)).1 = (scan s.text).1 from scan_any s.text [] (.inr rfl) h2]

/-! ### Goroutines -/

/-- The goroutine in `Program`. -/
def Go.idx (g : Go) : Option Nat :=
  match g.pc with
  | .running k => some k
  | _ => none

section
variable (parse : String → Option Int) (dflt : Int) (c : Program.Cfg K)

structure Inv (s : Sys K) : Prop where
  pre : s.gos.map Go.req <+: delivered s
  refused : ∀ g ∈ s.gos, g.pc = .refused → runSig1 parse dflt g.req = none
  running : ∀ g ∈ s.gos, ∀ k, g.pc = .running k → ∃ j, (reqs s.prog)[k]? = some j ∧ runSig1 parse dflt g.req = some j
  idx : (s.gos.filterMap Go.idx).Perm (List.range s.prog.jobs.length)
  left : s.left = true → s.gos.map Go.req = readRequests s.text ∧ s.gos.all (over s) = true

theorem Inv.init : Inv parse dflt (init c) := by
  refine ⟨List.nil_prefix, ?_, ?_, List.Perm.refl _, ?_⟩
  · intro g hg; cases hg
  · intro g hg; cases hg
  · intro h; cases h
end

variable {parse : String → Option Int} {dflt : Int} {c : Program.Cfg K}

theorem split_at {α : Type} {l : List α} {i : Nat} {x : α} (h : l[i]? = some x) (y : α) :
    ∃ a b, l = a ++ x :: b ∧ l.set i y = a ++ y :: b := by
  obtain ⟨hi, hx⟩ := List.getElem?_eq_some_iff.1 h
  refine ⟨l.take i, l.drop (i + 1), ?_, ?_⟩
  · rw [← hx, ← List.drop_eq_getElem_cons hi, List.take_append_drop]
  · rw [List.set_eq_take_append_cons_drop, if_pos hi]

theorem reqs_length (p : Program.Sys K) : (reqs p).length = p.jobs.length := List.length_map _

theorem Inv.step {s s' : Sys K} {e : Ev} (h : Inv parse dflt s) (hs : step parse dflt c s e = .ok s') : Inv parse dflt s' := by
  unfold Console.step at hs
  split at hs
  · cases hs
  · next hl =>
    have nl : ∀ {P : Prop}, s.left = true → P := fun e => absurd e hl
    cases e with
    | input cs =>
      dsimp only at hs
      split at hs
      · cases hs
      · next he =>
        cases hs
        refine ⟨h.pre.trans ?_, h.refused, h.running, h.idx, nl⟩
        unfold delivered
        rw [if_neg he, if_neg he]
        refine runSigs_prefix ?_
        obtain ⟨r, hr⟩ := complete_append s.text cs
        have := scan_prefix r (complete s.text) [] (complete_ends _) fun _ => rfl
        rw [hr] at this
        exact this
    | close =>
      cases hs
      exact ⟨h.pre.trans (delivered_prefix s), h.refused, h.running, h.idx, nl⟩
    | read =>
      dsimp only at hs
      split at hs
      · cases hs
      · next r hr =>
        cases hs
        refine ⟨?_, ?_, ?_, ?_, nl⟩
        · show (s.gos ++ [Go.mk r .fresh]).map Go.req <+: delivered s
          obtain ⟨t, ht⟩ := h.pre
          rw [← ht] at hr ⊢
          rw [List.getElem?_append_right (by simp)] at hr
          rw [List.length_map, Nat.sub_self] at hr
          cases t with
          | nil => cases hr
          | cons x t =>
            cases hr
            rw [List.map_append]
            exact ⟨t, by simp⟩
        · intro g hg
          rcases List.mem_append.1 hg with hg | hg
          · exact h.refused g hg
          · rw [List.mem_singleton.1 hg]; intro e; cases e
        · intro g hg
          rcases List.mem_append.1 hg with hg | hg
          · exact h.running g hg
          · rw [List.mem_singleton.1 hg]; intro k e; cases e
        · show ((s.gos ++ [Go.mk r .fresh]).filterMap Go.idx).Perm _
          rw [List.filterMap_append]
          show (s.gos.filterMap Go.idx ++ []).Perm _
          rw [List.append_nil]; exact h.idx
    | parse i =>
      dsimp only at hs
      split at hs
      · next r hg =>
        split at hs
        · next hr =>
          cases hs
          obtain ⟨a, b, h1, h2⟩ := split_at hg (Go.mk r .refused)
          have hm : ∀ g ∈ s.gos.set i ⟨r, .refused⟩, g ∈ s.gos ∨ g = ⟨r, .refused⟩ := fun g hg => List.mem_or_eq_of_mem_set hg
          refine ⟨?_, ?_, ?_, ?_, nl⟩
          · show (s.gos.set i ⟨r, .refused⟩).map Go.req <+: delivered s
            have := h.pre
            rw [h1] at this
            rw [h2]
            simpa using this
          · intro g hg
            rcases hm g hg with hg | rfl
            · exact h.refused g hg
            · intro _; exact hr
          · intro g hg
            rcases hm g hg with hg | rfl
            · exact h.running g hg
            · intro k e; cases e
          · show ((s.gos.set i ⟨r, .refused⟩).filterMap Go.idx).Perm _
            have := h.idx
            rw [h1] at this
            rw [h2]
            rw [List.filterMap_append] at this ⊢
            exact this
        · next j hr =>
          rw [Program.step] at hs
          cases hs
          obtain ⟨a, b, h1, h2⟩ := split_at hg (Go.mk r (.running s.prog.jobs.length))
          have hm : ∀ g ∈ s.gos.set i ⟨r, .running s.prog.jobs.length⟩, g ∈ s.gos ∨ g = ⟨r, .running s.prog.jobs.length⟩ :=
            fun g hg => List.mem_or_eq_of_mem_set hg
          have hq : ∀ p : Program.Sys K, p.jobs = s.prog.jobs ++ [⟨j, .registering, [], [], []⟩] → reqs p = reqs s.prog ++ [j] := by
            intro p hp; rw [reqs, hp, List.map_append]; rfl
          refine ⟨?_, ?_, ?_, ?_, nl⟩
          · show (s.gos.set i ⟨r, .running s.prog.jobs.length⟩).map Go.req <+: delivered s
            have := h.pre
            rw [h1] at this
            rw [h2]
            simpa using this
          · intro g hg
            rcases hm g hg with hg | rfl
            · exact h.refused g hg
            · intro e; cases e
          · intro g hg k hk
            rw [hq _ rfl]
            rcases hm g hg with hg | rfl
            · obtain ⟨j', h3, h4⟩ := h.running g hg k hk
              refine ⟨j', ?_, h4⟩
              rw [List.getElem?_append_left (List.getElem?_eq_some_iff.1 h3).1]; exact h3
            · cases hk
              refine ⟨j, ?_, hr⟩
              rw [← reqs_length, List.getElem?_append_right (Nat.le_refl _), Nat.sub_self]; rfl
          · show ((s.gos.set i ⟨r, .running s.prog.jobs.length⟩).filterMap Go.idx).Perm (List.range (s.prog.jobs ++ _).length)
            have := h.idx
            rw [h1] at this
            rw [h2, List.length_append, List.length_singleton, List.range_succ]
            rw [List.filterMap_append] at this ⊢
            have e1 : (Go.mk r .fresh :: b).filterMap Go.idx = b.filterMap Go.idx := rfl
            have e2 : (Go.mk r (.running s.prog.jobs.length) :: b).filterMap Go.idx = s.prog.jobs.length :: b.filterMap Go.idx := rfl
            rw [e1] at this
            rw [e2]
            exact List.perm_middle.trans ((this.cons _).trans (List.perm_append_comm (l₁ := [s.prog.jobs.length])))
      · cases hs
    | prog e =>
      dsimp only at hs
      split at hs
      · cases hs
      · next hn =>
        rw [Outcome.bind_eq_ok] at hs
        obtain ⟨p, hp, hs⟩ := hs
        cases hs
        have hq : reqs p = reqs s.prog := by
          rw [Program.reqs_step hp]
          cases e <;> first | exact List.append_nil _ | exact absurd rfl hn
        refine ⟨h.pre, h.refused, ?_, ?_, nl⟩
        · show ∀ g ∈ s.gos, ∀ k, g.pc = .running k → ∃ j, (reqs p)[k]? = some j ∧ _
          rw [hq]; exact h.running
        · show (s.gos.filterMap Go.idx).Perm (List.range p.jobs.length)
          rw [← reqs_length, hq, reqs_length]; exact h.idx
    | leave =>
      dsimp only at hs
      split at hs
      · next hc =>
        cases hs
        rw [Bool.and_eq_true, Bool.and_eq_true, decide_eq_true_eq] at hc
        obtain ⟨⟨h1, h2⟩, h3⟩ := hc
        refine ⟨h.pre, h.refused, h.running, h.idx, fun _ => ⟨?_, h3⟩⟩
        show s.gos.map Go.req = readRequests s.text
        rw [← delivered_all s h1]
        exact h.pre.eq_of_length (by rw [List.length_map]; exact h2)
      · cases hs

theorem Inv.run {es : List Ev} : ∀ {s s' : Sys K}, Inv parse dflt s → run parse dflt c s es = .ok s' → Inv parse dflt s' := by
  induction es with
  | nil => intro s s' h hr; cases hr; exact h
  | cons e es ih =>
    intro s s' h hr
    rw [Console.run, Outcome.bind_eq_ok] at hr
    obtain ⟨s1, h1, h2⟩ := hr
    exact ih (h.step h1) h2

/-- The goroutines that are past their arguments. -/
def looked (s : Sys K) : List Go := s.gos.filter fun g => !decide (g.pc = .fresh)

theorem range_getElem? {α : Type} (l : List α) : (List.range l.length).filterMap (fun k => l[k]?) = l := by
  induction l using List.reverseRecOn with
  | nil => rfl
  | append_singleton l x ih =>
    rw [List.length_append, List.length_singleton, List.range_succ, List.filterMap_append]
    have : (List.range l.length).filterMap (fun k => (l ++ [x])[k]?) = (List.range l.length).filterMap (fun k => l[k]?) := by
      refine List.filterMap_congr fun k hk => ?_
      rw [List.getElem?_append_left (List.mem_range.1 hk)]
    rw [this, ih]
    simp

theorem Inv.jobs {s : Sys K} (h : Inv parse dflt s) : (reqs s.prog).Perm (((looked s).map Go.req).filterMap (runSig1 parse dflt)) := by
  have key : ∀ l : List Go, (∀ g ∈ l, g ∈ s.gos) →
      (((l.filter fun g => !decide (g.pc = .fresh)).map Go.req).filterMap (runSig1 parse dflt)) =
        (l.filterMap Go.idx).filterMap fun k => (reqs s.prog)[k]? := by
    intro l
    induction l with
    | nil => intro _; rfl
    | cons g l ih =>
      intro hl
      have ih := ih fun g hg => hl g (List.mem_cons_of_mem _ hg)
      have hg := hl g List.mem_cons_self
      cases hp : g.pc with
      | fresh =>
        have e : g.idx = none := by unfold Go.idx; rw [hp]
        rw [List.filter_cons_of_neg (by simp [hp]), List.filterMap_cons_none e, ih]
      | refused =>
        have e : g.idx = none := by unfold Go.idx; rw [hp]
        rw [List.filter_cons_of_pos (by simp [hp]), List.filterMap_cons_none e, List.map_cons, List.filterMap_cons_none (h.refused g hg hp), ih]
      | running k =>
        have e : g.idx = some k := by unfold Go.idx; rw [hp]
        obtain ⟨j, h1, h2⟩ := h.running g hg k hp
        rw [List.filter_cons_of_pos (by simp [hp]), List.filterMap_cons_some e, List.map_cons, List.filterMap_cons_some h2,
          List.filterMap_cons_some h1, ih]
  unfold looked
  rw [key s.gos fun _ h => h]
  have := h.idx.filterMap fun k => (reqs s.prog)[k]?
  rw [← reqs_length, range_getElem?] at this
  exact this.symm

/-! ### The program inside -/

theorem print_append (c : Program.Cfg K) (l l' : List Program.Ev) : ∀ s, Print.run c s (l ++ l') =
    Print.run c s l >>= fun x => Print.run c x.1 l' >>= fun y => .ok (y.1, x.2 ++ y.2) := by
  induction l with
  | nil =>
    intro s
    show Print.run c s l' = Print.run c s l' >>= fun y => .ok (y.1, [] ++ y.2)
    cases Print.run c s l' <;> rfl
  | cons e l ih =>
    intro s
    rw [List.cons_append, Print.run, Print.run]
    cases h : Program.step c s e with
    | ok s1 =>
      rw [Outcome.bind_ok, Outcome.bind_ok, ih]
      cases Print.run c s1 l with
      | ok x =>
        rw [Outcome.bind_ok, Outcome.bind_ok, Outcome.bind_ok]
        cases Print.run c x.1 l' with
        | ok y => rw [Outcome.bind_ok, Outcome.bind_ok, Outcome.bind_ok, List.append_assoc]
        | err => rfl
        | panic => rfl
      | err => rfl
      | panic => rfl
    | err => rfl
    | panic => rfl

theorem inner_ok {s s' : Sys K} {e : Ev} (hs : step parse dflt c s e = .ok s') :
    ∃ o, Print.run c s.prog (inner parse dflt s e) = .ok (s'.prog, o) ∧ s'.out = s.out ++ o := by
  unfold Console.step at hs
  split at hs
  · cases hs
  · cases e with
    | input cs =>
      dsimp only at hs
      split at hs
      · cases hs
      · cases hs; exact ⟨[], rfl, (List.append_nil _).symm⟩
    | close => cases hs; exact ⟨[], rfl, (List.append_nil _).symm⟩
    | read =>
      dsimp only at hs
      split at hs
      · cases hs
      · cases hs; exact ⟨[], rfl, (List.append_nil _).symm⟩
    | parse i =>
      dsimp only at hs
      unfold inner
      dsimp only
      split at hs
      · next r hg =>
        rw [hg]
        show ∃ o, Print.run c s.prog ((runSig1 parse dflt r).map Program.Ev.request).toList = _ ∧ _
        split at hs
        · next hr => cases hs; rw [hr]; exact ⟨[], rfl, (List.append_nil _).symm⟩
        · next j hr =>
          rw [Outcome.bind_eq_ok] at hs
          obtain ⟨p, hp, hs⟩ := hs
          cases hs
          rw [hr]
          refine ⟨[], ?_, (List.append_nil _).symm⟩
          show Print.run c s.prog [.request j] = _
          rw [Print.run, hp]; rfl
      · cases hs
    | prog e =>
      dsimp only at hs
      split at hs
      · cases hs
      · rw [Outcome.bind_eq_ok] at hs
        obtain ⟨p, hp, hs⟩ := hs
        cases hs
        refine ⟨Print.printedBy c s.prog e, ?_, rfl⟩
        show Print.run c s.prog [e] = _
        rw [Print.run, hp]
        show Outcome.ok (p, Print.printedBy c s.prog e ++ []) = _
        rw [List.append_nil]
    | leave =>
      dsimp only at hs
      split at hs
      · cases hs; exact ⟨[], rfl, (List.append_nil _).symm⟩
      · cases hs

theorem trace_ok {es : List Ev} : ∀ {s s' : Sys K}, run parse dflt c s es = .ok s' →
    ∃ o, Print.run c s.prog (trace parse dflt c s es) = .ok (s'.prog, o) ∧ s'.out = s.out ++ o := by
  induction es with
  | nil => intro s s' hr; cases hr; exact ⟨[], rfl, (List.append_nil _).symm⟩
  | cons e es ih =>
    intro s s' hr
    rw [Console.run, Outcome.bind_eq_ok] at hr
    obtain ⟨s1, h1, h2⟩ := hr
    obtain ⟨o1, g1, g2⟩ := inner_ok h1
    obtain ⟨o2, g3, g4⟩ := ih h2
    refine ⟨o1 ++ o2, ?_, by rw [g4, g2, List.append_assoc]⟩
    rw [trace, h1, print_append, g1, Outcome.bind_ok, g3]
    rfl

theorem trace_net {es : List Ev} {m} : ∀ {s : Sys K}, .net m ∈ trace parse dflt c s es → .prog (.net m) ∈ es := by
  induction es with
  | nil => intro s h; cases h
  | cons e es ih =>
    intro s h
    rw [trace] at h
    split at h
    · rcases List.mem_append.1 h with h | h
      · refine List.mem_cons.2 (.inl ?_)
        cases e with
        | prog e => unfold inner at h; rw [List.mem_singleton.1 h]
        | parse i =>
          unfold inner at h
          rw [Option.mem_toList] at h
          obtain ⟨j, _, hj⟩ := Option.map_eq_some_iff.1 h
          cases hj
        | _ => cases h
      · exact List.mem_cons_of_mem _ (ih h)
    · cases h

theorem run_append (es es' : List Ev) : ∀ s : Sys K, run parse dflt c s (es ++ es') = run parse dflt c s es >>= fun s => run parse dflt c s es' := by
  induction es with
  | nil => intro s; rfl
  | cons e es ih =>
    intro s
    rw [List.cons_append, run, run]
    cases step parse dflt c s e with
    | ok s1 => exact ih s1
    | err => rfl
    | panic => rfl

/-- Events of the program alone. -/
theorem lift {h : List Program.Ev} : ∀ {s : Sys K} {p : Program.Sys K}, s.left = false → (∀ e ∈ h, isRequest e = false) →
    Program.run c s.prog h = .ok p → ∃ o, run parse dflt c s (h.map .prog) = .ok { s with prog := p, out := o } := by
  induction h with
  | nil => intro s p _ _ hr; cases hr; exact ⟨s.out, rfl⟩
  | cons e h ih =>
    intro s p hl hn hr
    rw [Program.run, Outcome.bind_eq_ok] at hr
    obtain ⟨p1, h1, h2⟩ := hr
    have hs : step parse dflt c s (.prog e) = .ok { s with prog := p1, out := s.out ++ Print.printedBy c s.prog e } := by
      unfold Console.step
      rw [hl]
      dsimp only
      rw [if_neg (by simp), if_neg (by rw [hn e List.mem_cons_self]; simp), h1]
      rfl
    obtain ⟨o, g⟩ := ih (s := { s with prog := p1, out := s.out ++ Print.printedBy c s.prog e }) hl
      (fun e he => hn e (List.mem_cons_of_mem _ he)) h2
    refine ⟨o, ?_⟩
    rw [List.map_cons, Console.run, hs]
    exact g

/-! ### The way to the end -/

theorem read_all {n : Nat} : ∀ {s : Sys K}, s.left = false → s.gos.map Go.req <+: delivered s → (delivered s).length - s.gos.length = n →
    ∃ s', run parse dflt c s (List.replicate n .read) = .ok s' ∧ s'.gos.map Go.req = delivered s ∧ s'.text = s.text ∧ s'.eof = s.eof ∧
      s'.left = false := by
  induction n with
  | zero =>
    intro s hl hp hn
    refine ⟨s, rfl, hp.eq_of_length ?_, rfl, rfl, hl⟩
    have := hp.length_le
    rw [List.length_map] at this ⊢
    omega
  | succ n ih =>
    intro s hl hp hn
    have hlt : s.gos.length < (delivered s).length := by omega
    have hs : step parse dflt c s .read = .ok { s with gos := s.gos ++ [⟨(delivered s)[s.gos.length], .fresh⟩] } := by
      unfold Console.step
      rw [hl, if_neg (by simp)]
      dsimp only
      rw [List.getElem?_eq_getElem hlt]
    have hp' : (s.gos ++ [Go.mk (delivered s)[s.gos.length] .fresh]).map Go.req <+: delivered s := by
      rw [List.map_append]
      obtain ⟨t, ht⟩ := hp
      have hl' : (s.gos.map Go.req).length = s.gos.length := List.length_map _
      have hh : delivered s = (delivered s).take s.gos.length ++ (delivered s)[s.gos.length] :: (delivered s).drop (s.gos.length + 1) := by
        rw [← List.drop_eq_getElem_cons hlt, List.take_append_drop]
      have ht' : (delivered s).take s.gos.length = s.gos.map Go.req := by rw [← ht, ← hl', List.take_left]
      refine ⟨(delivered s).drop (s.gos.length + 1), ?_⟩
      rw [List.append_assoc, ← ht']
      exact hh.symm
    obtain ⟨s', g1, g2, g3, g4, g5⟩ := ih (s := { s with gos := s.gos ++ [Go.mk (delivered s)[s.gos.length] .fresh] }) hl hp'
      (by show (delivered s).length - (s.gos ++ [_]).length = n; rw [List.length_append, List.length_singleton]; omega)
    refine ⟨s', ?_, g2, g3, g4, g5⟩
    rw [List.replicate_succ, Console.run, hs]
    exact g1

theorem parse_one {s : Sys K} {g : Go} {i : Nat} (hl : s.left = false) (hg : s.gos[i]? = some g) (hf : g.pc = .fresh) :
    ∃ s' pc, step parse dflt c s (.parse i) = .ok s' ∧ s'.gos = s.gos.set i ⟨g.req, pc⟩ ∧ pc ≠ .fresh ∧ s'.text = s.text ∧ s'.eof = s.eof ∧
      s'.left = false := by
  obtain ⟨r, pc⟩ := g
  cases hf
  unfold Console.step
  rw [hl, if_neg (by simp)]
  dsimp only
  rw [hg]
  dsimp only
  cases runSig1 parse dflt r with
  | none => exact ⟨_, .refused, rfl, rfl, by simp, rfl, rfl, rfl⟩
  | some j => exact ⟨_, .running s.prog.jobs.length, rfl, rfl, by simp, rfl, rfl, rfl⟩

theorem parse_all {n : Nat} : ∀ {s : Sys K}, s.left = false → n ≤ s.gos.length → (∀ i, n ≤ i → ∀ g, s.gos[i]? = some g → g.pc ≠ .fresh) →
    ∃ es s', (∀ e ∈ es, ∃ i, e = .parse i) ∧ run parse dflt c s es = .ok s' ∧ s'.gos.map Go.req = s.gos.map Go.req ∧ (∀ g ∈ s'.gos, g.pc ≠ .fresh) ∧
      s'.text = s.text ∧ s'.eof = s.eof ∧ s'.left = false := by
  induction n with
  | zero =>
    intro s hl _ h
    refine ⟨[], s, fun e he => (List.not_mem_nil he).elim, rfl, rfl, fun g hg => ?_, rfl, rfl, hl⟩
    obtain ⟨i, hi⟩ := List.getElem?_of_mem hg
    exact h i (Nat.zero_le _) g hi
  | succ n ih =>
    intro s hl hn h
    have hlt : n < s.gos.length := hn
    by_cases hf : s.gos[n].pc = .fresh
    · obtain ⟨s1, pc, g1, g2, g3, g4, g5, g6⟩ := parse_one (parse := parse) (dflt := dflt) (c := c) hl (List.getElem?_eq_getElem hlt) hf
      obtain ⟨es, s', k1, k2, k3, k4, k5, k6, k7⟩ := ih (s := s1) g6 (by rw [g2, List.length_set]; omega) (fun i hi g hg => by
        rw [g2, List.getElem?_set] at hg
        split at hg
        · cases hg; exact g3
        · exact h i (by omega) g hg)
      refine ⟨.parse n :: es, s', ?_, ?_, ?_, k4, k5.trans g4, k6.trans g5, k7⟩
      · intro e he
        rcases List.mem_cons.1 he with rfl | he
        · exact ⟨n, rfl⟩
        · exact k1 e he
      · rw [Console.run, g1]; exact k2
      · rw [k3, g2]
        obtain ⟨a, b, e1, e2⟩ := split_at (List.getElem?_eq_getElem hlt) (Go.mk s.gos[n].req pc)
        rw [e2]
        conv_rhs => rw [e1]
        simp
    · refine ih hl (by omega) fun i hi g hg => ?_
      rcases Nat.eq_or_lt_of_le hi with rfl | hi
      · rw [List.getElem?_eq_getElem hlt] at hg; cases hg; exact hf
      · exact h i hi g hg

end Verif.Console
