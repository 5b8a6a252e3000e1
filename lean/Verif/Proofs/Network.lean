import Mathlib.Data.List.Infix
import Verif.Spec.Network
import Verif.Props.NetCaller

/-! Processes with the network between them: what arrives was sent, and what is sent arrives. -/
namespace Verif.Network
open Verif.Prot Verif.Dkg Verif.Spec.Network Verif.Spec.NetCaller
open Verif.Props.NetCaller (inv_init inv_step inv_run flow flow_step offered_step offered_run pending)
variable {ι S E : Type}

section caller
variable {M : Type}
open NetCaller

/-- A call is recorded; nothing else is. -/
theorem calls_step {s s' : NetCaller.St M} {e : NetCaller.Ev M} (hs : NetCaller.step s e = .ok s') :
    (s'.calls = s.calls ∧ ∀ ok, e ≠ .call ok) ∨ ∃ ok c m, e = .call ok ∧ s.msg = some m ∧ s'.calls = s.calls ++ [(c, m, ok)] := by
  have gm : ∀ (t t' : NetCaller.St M) (pc : Pc), getMsg t pc = .ok t' → t'.calls = t.calls := by
    intro t t' pc h
    rw [getMsg.eq_def] at h
    by_cases hb : t.pushedBack = true
    · rw [if_pos hb] at h; rw [← Outcome.ok.inj h]
    · rw [if_neg hb] at h
      cases hq : t.queue with
      | nil => rw [hq] at h; cases h
      | cons m ms => rw [hq] at h; rw [← Outcome.ok.inj h]
  cases e with
  | send m =>
    rw [NetCaller.step] at hs
    rw [← Outcome.ok.inj hs, trySend]
    refine .inl ⟨?_, nofun⟩
    split <;> rfl
  | spawn retry =>
    rw [NetCaller.step] at hs
    split at hs
    · rw [← Outcome.ok.inj hs]; exact .inl ⟨rfl, nofun⟩
    · cases hs
  | recv i =>
    rw [NetCaller.step] at hs
    split at hs
    · cases hs
    · split at hs
      · cases hs
      · split at hs
        · rw [← Outcome.ok.inj hs]; exact .inl ⟨rfl, nofun⟩
        · cases hs
  | get =>
    rw [NetCaller.step] at hs
    refine .inl ⟨?_, nofun⟩
    split at hs
    · have := gm _ _ _ hs; exact this
    · split at hs
      · have := gm _ _ _ hs; exact this
      · split at hs
        · cases hq : s.queue with
          | nil => rw [hq] at hs; cases hs
          | cons m ms => rw [hq] at hs; rw [← Outcome.ok.inj hs]
        · cases hs
  | selConn i =>
    rw [NetCaller.step] at hs
    split at hs
    · cases hs
    · split at hs
      · cases hs
      · split at hs
        · rw [← Outcome.ok.inj hs]; exact .inl ⟨rfl, nofun⟩
        · cases hs
  | selDrop =>
    rw [NetCaller.step] at hs
    split at hs
    · rw [← Outcome.ok.inj hs]; exact .inl ⟨rfl, nofun⟩
    · cases hs
  | call ok =>
    rw [NetCaller.step] at hs
    by_cases hp : s.pc = .call
    · rw [if_pos hp] at hs
      cases hc : s.client with
      | none => rw [hc] at hs; cases hs
      | some c =>
        cases hm : s.msg with
        | none => rw [hc, hm] at hs; cases hs
        | some m =>
          rw [hc, hm] at hs
          rw [← Outcome.ok.inj hs]
          exact .inr ⟨ok, c, m, rfl, rfl, rfl⟩
    · rw [if_neg hp] at hs; cases hs
  | closing =>
    rw [NetCaller.step] at hs
    split at hs
    · rw [← Outcome.ok.inj hs]; exact .inl ⟨rfl, nofun⟩
    · cases hs
  | tried i r =>
    rw [NetCaller.step] at hs
    split at hs
    · cases hs
    · rw [Outcome.bind_eq_ok] at hs
      obtain ⟨_, _, hs⟩ := hs
      rw [← Outcome.ok.inj hs]; exact .inl ⟨rfl, nofun⟩
  | sleep i =>
    rw [NetCaller.step] at hs
    split at hs
    · cases hs
    · rw [Outcome.bind_eq_ok] at hs
      obtain ⟨_, _, hs⟩ := hs
      rw [← Outcome.ok.inj hs]; exact .inl ⟨rfl, nofun⟩

/-- Sending several messages. -/
theorem run_sends (ms : List M) (s : NetCaller.St M) : NetCaller.run s (ms.map .send) = .ok (ms.foldl trySend s) := by
  induction ms generalizing s with
  | nil => rfl
  | cons m ms ih => exact ih (trySend s m)

theorem caller_append (h g : List (NetCaller.Ev M)) {s s' : NetCaller.St M} (h1 : NetCaller.run s h = .ok s') :
    NetCaller.run s (h ++ g) = NetCaller.run s' g := by
  induction h generalizing s with
  | nil => rw [NetCaller.run] at h1; rw [← Outcome.ok.inj h1]; rfl
  | cons e h ih =>
    rw [NetCaller.run, Outcome.bind_eq_ok] at h1
    obtain ⟨t, h2, h3⟩ := h1
    rw [List.cons_append, NetCaller.run, h2, Outcome.bind_ok]
    exact ih h3

theorem sends_trySend (ms : List M) (s : NetCaller.St M) :
    (ms.foldl trySend s).offered = s.offered ++ ms ∧ (ms.foldl trySend s).calls = s.calls ∧ (ms.foldl trySend s).msg = s.msg := by
  induction ms generalizing s with
  | nil => exact ⟨(List.append_nil _).symm, rfl, rfl⟩
  | cons m ms ih =>
    obtain ⟨h1, h2, h3⟩ := ih (trySend s m)
    have h4 : (trySend s m).offered = s.offered ++ [m] ∧ (trySend s m).calls = s.calls ∧ (trySend s m).msg = s.msg := by
      rw [trySend]; split <;> exact ⟨rfl, rfl, rfl⟩
    rw [h4.1, List.append_assoc] at h1
    exact ⟨h1, h2.trans h4.2.1, h3.trans h4.2.2⟩

end caller

theorem put_self {α β : Type} [DecidableEq α] (f : α → β) (a : α) (b : β) : put f a b a = b := if_pos rfl

theorem put_other {α β : Type} [DecidableEq α] (f : α → β) {a x : α} (b : β) (h : x ≠ a) : put f a b x = f x := if_neg h

/-- What has been given is what there is now. -/
theorem of_given {l l' : List ((Int × Int) × List (Message Dto))} {k : Int × Int} {m : Message Dto} (h : (k, m) ∈ given l l') :
    ∃ b, (k, b) ∈ l' ∧ m ∈ b := by
  rw [given, List.mem_flatMap] at h
  obtain ⟨i, _, h⟩ := h
  cases hi : l'[i]? with
  | none => rw [hi] at h; cases h
  | some r =>
    rw [hi] at h
    obtain ⟨m', h1, h2⟩ := List.mem_map.1 h
    rw [Prod.mk.injEq] at h2
    obtain ⟨rfl, rfl⟩ := h2
    exact ⟨r.2, List.mem_of_getElem? hi, List.mem_of_mem_drop h1⟩

/-- What was not there before is given. -/
theorem mem_given {l l' : List ((Int × Int) × List (Message Dto))} {i : Nat} {k : Int × Int} {b : List (Message Dto)} {m : Message Dto}
    (hi : l'[i]? = some (k, b)) (hm : m ∈ b) (hold : ∀ r, l[i]? = some r → r.2 <+: b ∧ m ∉ r.2) : (k, m) ∈ given l l' := by
  rw [given, List.mem_flatMap]
  refine ⟨i, List.mem_range.2 (List.getElem?_eq_some_iff.1 hi).1, ?_⟩
  rw [hi]
  refine List.mem_map.2 ⟨m, ?_, rfl⟩
  cases hl : l[i]? with
  | none => exact hm
  | some r =>
    obtain ⟨⟨t, ht⟩, h2⟩ := hold r hl
    rw [Option.map_some, Option.getD_some]
    show m ∈ b.drop r.2.length
    rw [← ht, List.mem_append] at hm
    rw [← ht, List.drop_left]
    exact hm.resolve_left h2

/-- A message that is given gets into its queue, if there is one. -/
theorem give_ok {routes : GoMap (Int × Int) (List (Option String))} {gs : List ((Int × Int) × Message Dto)} {cs cs' : Callers}
    (h : giveAll routes cs gs = .ok cs') (k : Int × Int) (x : Int) :
    ∃ ms : List (Message Dto), cs' k x = ms.foldl NetCaller.trySend (cs k x) ∧ (∀ m ∈ ms, (k, m) ∈ gs ∧ m.rcpt = x) ∧
      ∀ qs a, routes.get? k = some qs → Start.queueOf qs x = .ok (some a) → ∀ m, (k, m) ∈ gs → m.rcpt = x → m ∈ ms := by
  induction gs generalizing cs with
  | nil => rw [giveAll] at h; rw [← Outcome.ok.inj h]; exact ⟨[], rfl, nofun, nofun⟩
  | cons g gs ih =>
    rw [giveAll, Outcome.bind_eq_ok] at h
    obtain ⟨c1, h1, h2⟩ := h
    obtain ⟨ms, e1, e2, e3⟩ := ih h2
    rw [give.eq_def] at h1
    cases hr : routes.get? g.1 with
    | none => rw [hr] at h1; cases h1
    | some qs =>
      rw [hr] at h1
      dsimp only at h1
      rw [Outcome.bind_eq_ok] at h1
      obtain ⟨a, ha, h1⟩ := h1
      cases a with
      | none =>
        have := Outcome.ok.inj h1
        subst this
        refine ⟨ms, e1, fun m hm => ⟨List.mem_cons_of_mem _ (e2 m hm).1, (e2 m hm).2⟩, fun qs' a' hq' ha' m hm hx => ?_⟩
        rcases List.mem_cons.1 hm with rfl | hm
        · subst hx
          have := Option.some.inj (hr.symm.trans hq')
          subst this
          have := Outcome.ok.inj (ha.symm.trans ha')
          cases this
        · exact e3 qs' a' hq' ha' m hm hx
      | some a =>
        have := Outcome.ok.inj h1
        subst this
        by_cases hk : k = g.1 ∧ x = g.2.rcpt
        · obtain ⟨rfl, rfl⟩ := hk
          rw [put_self, put_self] at e1
          refine ⟨g.2 :: ms, e1, fun m hm => ?_, fun qs' a' hq' ha' m hm hx => ?_⟩
          · rcases List.mem_cons.1 hm with rfl | hm
            · exact ⟨List.mem_cons_self, rfl⟩
            · exact ⟨List.mem_cons_of_mem _ (e2 m hm).1, (e2 m hm).2⟩
          · rcases List.mem_cons.1 hm with e | hm
            · exact List.mem_cons.2 (.inl (congrArg Prod.snd e))
            · exact List.mem_cons_of_mem _ (e3 qs' a' hq' ha' m hm hx)
        · have hsame : put cs g.1 (put (cs g.1) g.2.rcpt (NetCaller.trySend (cs g.1 g.2.rcpt) g.2)) k x = cs k x := by
            by_cases hk1 : k = g.1
            · subst hk1
              rw [put_self, put_other _ _ fun hx => hk ⟨rfl, hx⟩]
            · rw [put_other _ _ hk1]
          rw [hsame] at e1
          refine ⟨ms, e1, fun m hm => ⟨List.mem_cons_of_mem _ (e2 m hm).1, (e2 m hm).2⟩, fun qs' a' hq' ha' m hm hx => ?_⟩
          rcases List.mem_cons.1 hm with rfl | hm
          · exact absurd ⟨rfl, hx.symm⟩ hk
          · exact e3 qs' a' hq' ha' m hm hx

/-- A history of one process. -/
def Prog.run (P : Prog S E) (s : S) : List E → Outcome S
  | [] => .ok s
  | e :: es => P.step s e >>= fun s' => P.run s' es

theorem Prog.run_append (P : Prog S E) (s : S) (h g : List E) : P.run s (h ++ g) = P.run s h >>= fun s' => P.run s' g := by
  induction h generalizing s with
  | nil => rfl
  | cons e h ih =>
    rw [List.cons_append, Prog.run, Prog.run]
    cases P.step s e with
    | ok s1 => exact ih s1
    | err => rfl
    | panic => rfl

variable [DecidableEq ι] {N : Net ι S E}

theorem run_append (s : Sys ι S E) (h g : List (Ev ι E)) : run N s (h ++ g) = run N s h >>= fun s' => run N s' g := by
  induction h generalizing s with
  | nil => rfl
  | cons e h ih =>
    rw [List.cons_append, run, run]
    cases step N s e with
    | ok s1 => exact ih s1
    | err => rfl
    | panic => rfl

/-- The parts of an event in a process. -/
theorem prog_ok {s s' : Sys ι S E} {p : ι} {e : E} (h : progStep N s p e = .ok s') :
    ∃ x cs, (N.prog p).step (s.procs p) e = .ok x ∧
      giveAll (N.routes p) (s.callers p) (given ((N.prog p).logs (s.procs p)) ((N.prog p).logs x)) = .ok cs ∧
      s' = ⟨put s.procs p x, put s.callers p cs, put s.hist p (s.hist p ++ [e])⟩ := by
  rw [progStep, Outcome.bind_eq_ok] at h
  obtain ⟨x, h1, h⟩ := h
  rw [Outcome.bind_eq_ok] at h
  obtain ⟨cs, h2, h⟩ := h
  exact ⟨x, cs, h1, h2, (Outcome.ok.inj h).symm⟩

/-- What an event is: something in a process, perhaps after something in a queue, or the latter alone. -/
theorem step_cases {s s' : Sys ι S E} {ev : Ev ι E} (h : step N s ev = .ok s') :
    (∃ p e, ev = .prog p e ∧ (N.prog p).arrival e = false ∧ progStep N s p e = .ok s') ∨
    (∃ p m, ev = .outside p m ∧ progStep N s p ((N.prog p).arrive m) = .ok s') ∨
    (∃ p k x e c, ev = .caller p k x e ∧ (∀ m, e ≠ .send m) ∧ (∀ ok, e ≠ .call ok) ∧ NetCaller.step (s.callers p k x) e = .ok c ∧ s' = putCaller s p k x c) ∨
    (∃ p k x ok c, ev = .call p k x ok none ∧ ok = false ∧ NetCaller.step (s.callers p k x) (.call ok) = .ok c ∧ s' = putCaller s p k x c) ∨
    ∃ p k x ok r m a c, ev = .call p k x ok (some r) ∧ addr N p k x = some a ∧ a ∈ N.listen r ∧ (s.callers p k x).msg = some m ∧
      NetCaller.step (s.callers p k x) (.call ok) = .ok c ∧ progStep N (putCaller s p k x c) r ((N.prog r).arrive m) = .ok s' := by
  cases ev with
  | prog p e =>
    rw [step] at h
    by_cases ha : (N.prog p).arrival e = true
    · rw [if_pos ha] at h; cases h
    · rw [if_neg ha] at h; exact .inl ⟨p, e, rfl, by simpa using ha, h⟩
  | outside p m => exact .inr (.inl ⟨p, m, rfl, h⟩)
  | caller p k x e =>
    refine .inr (.inr (.inl ?_))
    rw [step.eq_def] at h
    dsimp only at h
    cases ha : addr N p k x with
    | none => rw [ha] at h; cases h
    | some a =>
      rw [ha] at h
      cases e with
      | send m => cases h
      | call ok => cases h
      | _ =>
        dsimp only at h
        rw [Outcome.bind_eq_ok] at h
        obtain ⟨c, h1, h2⟩ := h
        exact ⟨p, k, x, _, c, rfl, nofun, nofun, h1, (Outcome.ok.inj h2).symm⟩
  | call p k x ok dest =>
    refine .inr (.inr (.inr ?_))
    rw [step] at h
    cases ha : addr N p k x with
    | none => rw [ha] at h; cases h
    | some a =>
      cases hm : (s.callers p k x).msg with
      | none => rw [ha, hm] at h; cases h
      | some m =>
        rw [ha, hm] at h
        dsimp only at h
        rw [Outcome.bind_eq_ok] at h
        obtain ⟨c, h1, h⟩ := h
        cases dest with
        | none =>
          dsimp only at h
          cases ok with
          | true => cases h
          | false => exact .inl ⟨p, k, x, false, c, rfl, rfl, h1, (Outcome.ok.inj h).symm⟩
        | some r =>
          dsimp only at h
          by_cases hl : a ∈ N.listen r
          · rw [if_pos hl] at h; exact .inr ⟨p, k, x, ok, r, m, a, c, rfl, ha, hl, hm, h1, h⟩
          · rw [if_neg hl] at h; cases h

/-- The queues of a process after an event in it. -/
theorem prog_callers {s s' : Sys ι S E} {p : ι} {e : E} (h : progStep N s p e = .ok s') (q : ι) (k : Int × Int) (x : Int) :
    ∃ ms : List (Message Dto), s'.callers q k x = ms.foldl NetCaller.trySend (s.callers q k x) ∧
      (∀ m ∈ ms, q = p ∧ (k, m) ∈ given ((N.prog p).logs (s.procs p)) ((N.prog p).logs (s'.procs p)) ∧ m.rcpt = x) ∧
      (q = p → ∀ a, addr N p k x = some a → ∀ m, (k, m) ∈ given ((N.prog p).logs (s.procs p)) ((N.prog p).logs (s'.procs p)) → m.rcpt = x → m ∈ ms) := by
  obtain ⟨y, cs, _, h2, rfl⟩ := prog_ok h
  dsimp only
  by_cases hq : q = p
  · subst hq
    rw [put_self, put_self]
    obtain ⟨ms, e1, e2, e3⟩ := give_ok h2 k x
    refine ⟨ms, e1, fun m hm => ⟨rfl, e2 m hm⟩, fun _ a ha => ?_⟩
    rw [addr] at ha
    cases hr : (N.routes q).get? k with
    | none => rw [hr] at ha; cases ha
    | some qs =>
      rw [hr] at ha
      dsimp only at ha
      cases hqs : Start.queueOf qs x with
      | ok b => rw [hqs] at ha; dsimp only at ha; subst ha; exact e3 qs a hr hqs
      | err => rw [hqs] at ha; cases ha
      | panic => rw [hqs] at ha; cases ha
  · rw [put_other _ _ hq]
    exact ⟨[], rfl, nofun, fun h => absurd h hq⟩

theorem putCaller_self (s : Sys ι S E) (p : ι) (k : Int × Int) (x : Int) (c : NetCaller.St (Message Dto)) :
    (putCaller s p k x c).callers p k x = c := by
  simp only [putCaller, put_self]

theorem putCaller_other (s : Sys ι S E) {p q : ι} {k l : Int × Int} {x y : Int} (c : NetCaller.St (Message Dto)) (h : ¬ (q = p ∧ l = k ∧ y = x)) :
    (putCaller s p k x c).callers q l y = s.callers q l y := by
  simp only [putCaller]
  by_cases h1 : q = p
  · subst h1
    rw [put_self]
    by_cases h2 : l = k
    · subst h2
      rw [put_self, put_other _ _ fun h3 => h ⟨rfl, rfl, h3⟩]
    · rw [put_other _ _ h2]
  · rw [put_other _ _ h1]

/-- A history of a process is one of its program, the queues are queues, what is in them was sent, and what has come in comes from
outside or from a queue. -/
structure Inv (N : Net ι S E) (h : List (Ev ι E)) (s : Sys ι S E) : Prop where
  hist : ∀ p, (N.prog p).run (N.prog p).init (s.hist p) = .ok (s.procs p)
  caller : ∀ p k x, ∃ ch, NetCaller.run NetCaller.init ch = .ok (s.callers p k x) ∧ (NetCaller.Ev.selDrop ∈ ch → .caller p k x .selDrop ∈ h)
  sent : ∀ p k x m, m ∈ (s.callers p k x).offered → m.rcpt = x ∧
    ∃ h1 h2 s1 b, s.hist p = h1 ++ h2 ∧ (N.prog p).run (N.prog p).init h1 = .ok s1 ∧ (k, b) ∈ (N.prog p).logs s1 ∧ m ∈ b
  came : ∀ r e, e ∈ s.hist r → (N.prog r).arrival e = true →
    ∃ m, e = (N.prog r).arrive m ∧ (.outside r m ∈ h ∨ ∃ p k x, m ∈ (s.callers p k x).offered)

theorem Inv.prog {h h' : List (Ev ι E)} {s s' : Sys ι S E} (hI : Inv N h s) (hh : ∀ e ∈ h, e ∈ h') {p : ι} {e : E} (hs : progStep N s p e = .ok s')
    (hc : (N.prog p).arrival e = true → ∃ m, e = (N.prog p).arrive m ∧ (.outside p m ∈ h' ∨ ∃ q k x, m ∈ (s.callers q k x).offered)) :
    Inv N h' s' := by
  have hmono : ∀ q k x m, m ∈ (s.callers q k x).offered → m ∈ (s'.callers q k x).offered := by
    intro q k x m hm
    obtain ⟨ms, e1, _⟩ := prog_callers hs q k x
    rw [e1, (sends_trySend ms _).1]
    exact List.mem_append_left _ hm
  have hcal := prog_callers hs
  obtain ⟨y, cs, h1, h2, e0⟩ := prog_ok hs
  have hp : s'.procs p = y := by rw [e0]; exact put_self _ _ _
  have hpo : ∀ q, q ≠ p → s'.procs q = s.procs q := fun q hq => by rw [e0]; exact put_other _ _ hq
  have hh1 : s'.hist p = s.hist p ++ [e] := by rw [e0]; exact put_self _ _ _
  have hho : ∀ q, q ≠ p → s'.hist q = s.hist q := fun q hq => by rw [e0]; exact put_other _ _ hq
  have hrun : (N.prog p).run (N.prog p).init (s'.hist p) = .ok (s'.procs p) := by
    rw [hh1, Prog.run_append, hI.hist p, Outcome.bind_ok, Prog.run, h1, Outcome.bind_ok, hp]; rfl
  refine ⟨fun q => ?_, fun q k x => ?_, fun q k x m hm => ?_, fun r e' he' ha => ?_⟩
  · by_cases hq : q = p
    · subst hq; exact hrun
    · rw [hpo q hq, hho q hq]; exact hI.hist q
  · obtain ⟨ms, e1, _⟩ := hcal q k x
    obtain ⟨ch, c1, c2⟩ := hI.caller q k x
    refine ⟨ch ++ ms.map .send, ?_, fun hd => ?_⟩
    · rw [caller_append _ _ c1, run_sends, e1]
    · rcases List.mem_append.1 hd with hd | hd
      · exact hh _ (c2 hd)
      · obtain ⟨m, _, e⟩ := List.mem_map.1 hd
        cases e
  · obtain ⟨ms, e1, e2, _⟩ := hcal q k x
    rw [e1, (sends_trySend ms _).1, List.mem_append] at hm
    rcases hm with hm | hm
    · obtain ⟨h3, g1, g2, s1, b, h4, h5⟩ := hI.sent q k x m hm
      by_cases hq : q = p
      · subst hq
        exact ⟨h3, g1, g2 ++ [e], s1, b, by rw [hh1, h4, List.append_assoc], h5⟩
      · exact ⟨h3, g1, g2, s1, b, by rw [hho q hq]; exact h4, h5⟩
    · obtain ⟨rfl, h3, h4⟩ := e2 m hm
      obtain ⟨b, h5, h6⟩ := of_given h3
      exact ⟨h4, s'.hist q, [], s'.procs q, b, (List.append_nil _).symm, hrun, h5, h6⟩
  · have old : ∀ e' ∈ s.hist r, (N.prog r).arrival e' = true →
        ∃ m, e' = (N.prog r).arrive m ∧ (.outside r m ∈ h' ∨ ∃ p k x, m ∈ (s'.callers p k x).offered) := by
      intro e' he' ha
      obtain ⟨m, h3, h4⟩ := hI.came r e' he' ha
      refine ⟨m, h3, h4.imp (hh _) ?_⟩
      rintro ⟨q, k, x, h5⟩
      exact ⟨q, k, x, hmono q k x m h5⟩
    by_cases hr : r = p
    · subst hr
      rw [hh1, List.mem_append] at he'
      rcases he' with he' | he'
      · exact old e' he' ha
      · rw [List.mem_singleton] at he'
        subst he'
        obtain ⟨m, h3, h4⟩ := hc ha
        refine ⟨m, h3, h4.imp_right ?_⟩
        rintro ⟨q, k, x, h5⟩
        exact ⟨q, k, x, hmono q k x m h5⟩
    · rw [hho r hr] at he'
      exact old e' he' ha

theorem Inv.put {h h' : List (Ev ι E)} {s : Sys ι S E} (hI : Inv N h s) (hh : ∀ e ∈ h, e ∈ h') {p : ι} {k : Int × Int} {x : Int}
    {e : NetCaller.Ev (Message Dto)} {c : NetCaller.St (Message Dto)} (hs : NetCaller.step (s.callers p k x) e = .ok c) (hn : ∀ m, e ≠ .send m)
    (hd : e = .selDrop → .caller p k x .selDrop ∈ h') : Inv N h' (putCaller s p k x c) := by
  have hoff : c.offered = (s.callers p k x).offered := by
    rw [offered_step hs]
    have : sends [e] = [] := by
      cases e with
      | send m => exact absurd rfl (hn m)
      | _ => rfl
    rw [this, List.append_nil]
  have hall : ∀ q l y, ((putCaller s p k x c).callers q l y).offered = (s.callers q l y).offered := by
    intro q l y
    by_cases hq : q = p ∧ l = k ∧ y = x
    · obtain ⟨rfl, rfl, rfl⟩ := hq
      rw [putCaller_self, hoff]
    · rw [putCaller_other s c hq]
  refine ⟨hI.hist, fun q l y => ?_, fun q l y m hm => ?_, fun r e' he' ha => ?_⟩
  · obtain ⟨ch, c1, c2⟩ := hI.caller q l y
    by_cases hq : q = p ∧ l = k ∧ y = x
    · obtain ⟨rfl, rfl, rfl⟩ := hq
      refine ⟨ch ++ [e], ?_, fun hm => ?_⟩
      · rw [caller_append _ _ c1, NetCaller.run, hs, Outcome.bind_ok, putCaller_self]; rfl
      · rcases List.mem_append.1 hm with hm | hm
        · exact hh _ (c2 hm)
        · exact hd (List.mem_singleton.1 hm).symm
    · rw [putCaller_other s c hq]
      exact ⟨ch, c1, fun hm => hh _ (c2 hm)⟩
  · rw [hall] at hm
    exact hI.sent q l y m hm
  · obtain ⟨m, h3, h4⟩ := hI.came r e' he' ha
    refine ⟨m, h3, h4.imp (hh _) ?_⟩
    rintro ⟨q, l, y, h5⟩
    exact ⟨q, l, y, by rw [hall]; exact h5⟩

omit [DecidableEq ι] in
theorem Inv.init : Inv N [] (init N) :=
  ⟨fun _ => rfl, fun _ _ _ => ⟨[], rfl, nofun⟩, fun _ _ _ _ h => absurd h List.not_mem_nil, fun _ _ h => absurd h List.not_mem_nil⟩

omit [DecidableEq ι] in
/-- What is called was sent. -/
theorem Inv.msg {h : List (Ev ι E)} {s : Sys ι S E} (hI : Inv N h s) {p : ι} {k : Int × Int} {x : Int} {ok : Bool} {c : NetCaller.St (Message Dto)}
    (hs : NetCaller.step (s.callers p k x) (.call ok) = .ok c) {m : Message Dto} (hm : (s.callers p k x).msg = some m) :
    m ∈ (s.callers p k x).offered := by
  obtain ⟨ch, c1, _⟩ := hI.caller p k x
  have hi := inv_step (inv_run inv_init c1) hs
  have ho := offered_step hs
  rcases calls_step hs with ⟨_, h1⟩ | ⟨_, c0, m', _, h2, h3⟩
  · exact absurd rfl (h1 ok)
  · have := Option.some.inj (hm.symm.trans h2)
    subst this
    have h4 : m ∈ c.accepted := hi.order.subset (List.mem_append_left _ (by rw [h3]; simp [called]))
    have h5 := hi.sub.subset h4
    rw [ho] at h5
    simpa [sends] using h5

theorem Inv.step {h : List (Ev ι E)} {s s' : Sys ι S E} (hI : Inv N h s) {ev : Ev ι E}
    (hs : step N s ev = .ok s') : Inv N (h ++ [ev]) s' := by
  have hh : ∀ e ∈ h, e ∈ h ++ [ev] := fun e he => List.mem_append_left _ he
  have hl : ev ∈ h ++ [ev] := List.mem_append_right _ List.mem_cons_self
  rcases step_cases hs with ⟨p, e, _, ha, h1⟩ | ⟨p, m, rfl, h1⟩ | ⟨p, k, x, e, c, rfl, hn, _, h1, rfl⟩ | ⟨p, k, x, ok, c, rfl, _, h1, rfl⟩ |
    ⟨p, k, x, ok, r, m, a, c, rfl, ha, hr, hm, h1, h2⟩
  · exact hI.prog hh h1 fun h => by rw [ha] at h; cases h
  · exact hI.prog hh h1 fun _ => ⟨m, rfl, .inl hl⟩
  · exact hI.put hh h1 hn fun h => by subst h; exact hl
  · exact hI.put hh h1 nofun nofun
  · refine (hI.put (h' := h) (fun _ h => h) h1 nofun nofun).prog hh h2 fun _ => ⟨m, rfl, .inr ⟨p, k, x, ?_⟩⟩
    rw [putCaller_self, offered_step h1]
    exact List.mem_append_left _ (hI.msg h1 hm)

theorem Inv.run {h g : List (Ev ι E)} {s s' : Sys ι S E} (hI : Inv N h s)
    (hs : run N s g = .ok s') : Inv N (h ++ g) s' := by
  induction g generalizing h s with
  | nil => rw [Network.run] at hs; rw [← Outcome.ok.inj hs, List.append_nil]; exact hI
  | cons e g ih =>
    rw [Network.run, Outcome.bind_eq_ok] at hs
    obtain ⟨s1, h1, h2⟩ := hs
    have := ih (hI.step h1) h2
    rwa [List.append_assoc] at this

/-- What an event means to process `q`. -/
theorem hist_cases {s s' : Sys ι S E} {ev : Ev ι E} (hs : step N s ev = .ok s') (q : ι) :
    (s'.hist q = s.hist q ∧ s'.procs q = s.procs q) ∨
    ∃ s0 e, progStep N s0 q e = .ok s' ∧ s0.procs = s.procs ∧ s0.hist = s.hist ∧ s'.hist q = s.hist q ++ [e] ∧
      (∀ p k x, (s0.callers p k x).offered = (s.callers p k x).offered) ∧ ∀ h, Inv N h s → Inv N h s0 := by
  have prog : ∀ {s0 : Sys ι S E} {p : ι} {e : E}, progStep N s0 p e = .ok s' → s0.procs = s.procs → s0.hist = s.hist →
      (∀ p k x, (s0.callers p k x).offered = (s.callers p k x).offered) → (∀ h, Inv N h s → Inv N h s0) →
      (s'.hist q = s.hist q ∧ s'.procs q = s.procs q) ∨
      ∃ s0 e, progStep N s0 q e = .ok s' ∧ s0.procs = s.procs ∧ s0.hist = s.hist ∧ s'.hist q = s.hist q ++ [e] ∧
        (∀ p k x, (s0.callers p k x).offered = (s.callers p k x).offered) ∧ ∀ h, Inv N h s → Inv N h s0 := by
    intro s0 p e h1 h2 h3 h4 h5
    obtain ⟨y, cs, _, _, e0⟩ := prog_ok h1
    by_cases hq : q = p
    · subst hq
      exact .inr ⟨s0, e, h1, h2, h3, by rw [e0, ← h3]; exact put_self _ _ _, h4, h5⟩
    · exact .inl ⟨by rw [e0, ← h3]; exact put_other _ _ hq, by rw [e0, ← h2]; exact put_other _ _ hq⟩
  rcases step_cases hs with ⟨p, e, _, ha, h1⟩ | ⟨p, m, rfl, h1⟩ | ⟨p, k, x, e, c, rfl, hn, _, h1, rfl⟩ | ⟨p, k, x, ok, c, rfl, _, h1, rfl⟩ |
    ⟨p, k, x, ok, r, m, a, c, rfl, ha, hr, hm, h1, h2⟩
  · exact prog h1 rfl rfl (fun _ _ _ => rfl) fun _ h => h
  · exact prog h1 rfl rfl (fun _ _ _ => rfl) fun _ h => h
  · exact .inl ⟨rfl, rfl⟩
  · exact .inl ⟨rfl, rfl⟩
  · refine prog h2 rfl rfl (fun q l y => ?_) fun h hI => hI.put (fun _ h => h) h1 nofun nofun
    by_cases hq : q = p ∧ l = k ∧ y = x
    · obtain ⟨rfl, rfl, rfl⟩ := hq
      rw [putCaller_self, offered_step h1]
      exact List.append_nil _
    · rw [putCaller_other s c hq]

theorem hist_mono {s s' : Sys ι S E} {g : List (Ev ι E)} (hs : run N s g = .ok s') (q : ι) : s.hist q <+: s'.hist q := by
  induction g generalizing s with
  | nil => rw [run] at hs; rw [← Outcome.ok.inj hs]
  | cons e g ih =>
    rw [run, Outcome.bind_eq_ok] at hs
    obtain ⟨s1, h1, h2⟩ := hs
    refine List.IsPrefix.trans ?_ (ih h2)
    rcases hist_cases h1 q with ⟨h, _⟩ | ⟨_, e, _, _, _, h, _⟩
    · rw [h]
    · rw [h]; exact List.prefix_append _ _

/-- Where an event of a process is in the history of all. -/
theorem locate {h : List (Ev ι E)} {s0 : Sys ι S E} (hs : run N (init N) h = .ok s0) {q : ι} {h1 h2 : List E} {e : E} (hh : s0.hist q = h1 ++ e :: h2) :
    ∃ g1 ev g2 s s', h = g1 ++ ev :: g2 ∧ run N (init N) g1 = .ok s ∧ step N s ev = .ok s' ∧ s.hist q = h1 ∧ s'.hist q = h1 ++ [e] := by
  induction h using List.reverseRecOn generalizing s0 h2 with
  | nil =>
    rw [run] at hs
    rw [← Outcome.ok.inj hs] at hh
    exact absurd hh.symm (by simp [init])
  | append_singleton g ev ih =>
    rw [run_append, Outcome.bind_eq_ok] at hs
    obtain ⟨s, hg, hs⟩ := hs
    rw [run, Outcome.bind_eq_ok] at hs
    obtain ⟨s1, hs1, hs2⟩ := hs
    rw [run] at hs2
    have := Outcome.ok.inj hs2
    subst this
    have old : ∀ h3, s.hist q = h1 ++ e :: h3 → ∃ g1 ev' g2 s s', g ++ [ev] = g1 ++ ev' :: g2 ∧ run N (init N) g1 = .ok s ∧ step N s ev' = .ok s' ∧
        s.hist q = h1 ∧ s'.hist q = h1 ++ [e] := by
      intro h3 hh
      obtain ⟨g1, ev', g2, s', s'', e1, e2⟩ := ih hg hh
      exact ⟨g1, ev', g2 ++ [ev], s', s'', by rw [e1]; simp, e2⟩
    rcases hist_cases hs1 q with ⟨h3, _⟩ | ⟨_, e', _, _, _, h3, _⟩
    · exact old h2 (h3.symm.trans hh)
    · rcases List.eq_nil_or_concat h2 with rfl | ⟨l, b, rfl⟩
      · rw [hh] at h3
        obtain ⟨e1, e2⟩ := List.append_inj' h3 rfl
        exact ⟨g, ev, [], s, s1, rfl, hg, hs1, e1.symm, hh⟩
      · refine old l ?_
        have h4 := h3.symm.trans hh
        rw [List.concat_eq_append, ← List.cons_append, ← List.append_assoc] at h4
        exact (List.append_inj' h4 rfl).1

theorem offered_mono {s s' : Sys ι S E} {g : List (Ev ι E)} (hs : run N s g = .ok s') (q : ι) (k : Int × Int) (x : Int) :
    (s.callers q k x).offered <+: (s'.callers q k x).offered := by
  induction g generalizing s with
  | nil => rw [run] at hs; rw [← Outcome.ok.inj hs]
  | cons ev g ih =>
    rw [run, Outcome.bind_eq_ok] at hs
    obtain ⟨s1, h1, h2⟩ := hs
    refine List.IsPrefix.trans ?_ (ih h2)
    have prog : ∀ {s0 : Sys ι S E} {p : ι} {e : E}, progStep N s0 p e = .ok s1 → (s0.callers q k x).offered <+: (s1.callers q k x).offered := by
      intro s0 p e h3
      obtain ⟨ms, e1, _⟩ := prog_callers h3 q k x
      rw [e1, (sends_trySend ms _).1]
      exact List.prefix_append _ _
    have cal : ∀ {p : ι} {l : Int × Int} {y : Int} {e : NetCaller.Ev (Message Dto)} {c : NetCaller.St (Message Dto)},
        NetCaller.step (s.callers p l y) e = .ok c → (s.callers q k x).offered <+: ((putCaller s p l y c).callers q k x).offered := by
      intro p l y e c h3
      by_cases hq : q = p ∧ k = l ∧ x = y
      · obtain ⟨rfl, rfl, rfl⟩ := hq
        rw [putCaller_self, offered_step h3]
        exact List.prefix_append _ _
      · rw [putCaller_other s c hq]
    rcases step_cases h1 with ⟨p, e, _, ha, h3⟩ | ⟨p, m, _, h3⟩ | ⟨p, l, y, e, c, _, hn, _, h3, rfl⟩ | ⟨p, l, y, ok, c, _, _, h3, rfl⟩ |
      ⟨p, l, y, ok, r, m, a, c, _, ha, hr, hm, h3, h4⟩
    · exact prog h3
    · exact prog h3
    · exact cal h3
    · exact cal h3
    · exact (cal h3).trans (prog h4)

/-- A call of a queue is recorded; nothing else is. -/
theorem net_calls {s s' : Sys ι S E} {ev : Ev ι E} (hs : step N s ev = .ok s') (q : ι) (k : Int × Int) (x : Int) :
    (s'.callers q k x).calls = (s.callers q k x).calls ∨ ∃ ok r c m, ev = .call q k x ok r ∧ (s.callers q k x).msg = some m ∧
      (s'.callers q k x).calls = (s.callers q k x).calls ++ [(c, m, ok)] := by
  have prog : ∀ {s0 : Sys ι S E} {p : ι} {e : E}, progStep N s0 p e = .ok s' → (s'.callers q k x).calls = (s0.callers q k x).calls := by
    intro s0 p e h3
    obtain ⟨ms, e1, _⟩ := prog_callers h3 q k x
    rw [e1, (sends_trySend ms _).2.1]
  have call : ∀ {p : ι} {l : Int × Int} {y : Int} {ok : Bool} {c : NetCaller.St (Message Dto)} {r : Option ι}, NetCaller.step (s.callers p l y) (.call ok) = .ok c →
      ev = .call p l y ok r → (s'.callers q k x).calls = ((putCaller s p l y c).callers q k x).calls →
      (s'.callers q k x).calls = (s.callers q k x).calls ∨ ∃ ok r c m, ev = .call q k x ok r ∧ (s.callers q k x).msg = some m ∧
        (s'.callers q k x).calls = (s.callers q k x).calls ++ [(c, m, ok)] := by
    intro p l y ok c r h1 h2 h3
    by_cases hq : q = p ∧ k = l ∧ x = y
    · obtain ⟨rfl, rfl, rfl⟩ := hq
      rw [putCaller_self] at h3
      rcases calls_step h1 with ⟨_, h4⟩ | ⟨ok', c0, m, h4, h5, h6⟩
      · exact absurd rfl (h4 ok)
      · cases h4
        exact .inr ⟨ok, r, c0, m, h2, h5, h3.trans h6⟩
    · rw [putCaller_other s c hq] at h3
      exact .inl h3
  rcases step_cases hs with ⟨p, e, _, ha, h1⟩ | ⟨p, m, rfl, h1⟩ | ⟨p, l, y, e, c, he, hn, hn', h1, h2⟩ | ⟨p, l, y, ok, c, he, _, h1, h2⟩ |
    ⟨p, l, y, ok, r, m, a, c, he, ha, hr, hm, h1, h2⟩
  · exact .inl (prog h1)
  · exact .inl (prog h1)
  · left
    rw [h2]
    by_cases hq : q = p ∧ k = l ∧ x = y
    · obtain ⟨rfl, rfl, rfl⟩ := hq
      rw [putCaller_self]
      rcases calls_step h1 with ⟨h4, _⟩ | ⟨ok', _, _, h4, _⟩
      · exact h4
      · exact absurd h4 (hn' ok')
    · rw [putCaller_other s c hq]
  · exact call h1 he (by rw [h2])
  · exact call h1 he (prog h2)

/-- The call with a given number. -/
theorem crossing {s s' : Sys ι S E} {g : List (Ev ι E)} (hs : run N s g = .ok s') {q : ι} {k : Int × Int} {x : Int} {i : Nat}
    (h1 : (s.callers q k x).calls.length ≤ i) (h2 : i < (s'.callers q k x).calls.length) :
    ∃ g1 ok r g2 s1 s2 c m, g = g1 ++ .call q k x ok r :: g2 ∧ run N s g1 = .ok s1 ∧ step N s1 (.call q k x ok r) = .ok s2 ∧
      (s1.callers q k x).calls.length = i ∧ (s1.callers q k x).msg = some m ∧ (s2.callers q k x).calls = (s1.callers q k x).calls ++ [(c, m, ok)] := by
  induction g generalizing s with
  | nil => rw [run] at hs; rw [← Outcome.ok.inj hs] at h2; omega
  | cons ev g ih =>
    rw [run, Outcome.bind_eq_ok] at hs
    obtain ⟨t, h3, h4⟩ := hs
    have later : (t.callers q k x).calls.length ≤ i → _ := fun h => ih h4 h
    by_cases hc : (t.callers q k x).calls.length ≤ i
    · obtain ⟨g1, ok, r, g2, s1, s2, c, m, e1, e2, e3⟩ := ih h4 hc
      exact ⟨ev :: g1, ok, r, g2, s1, s2, c, m, by rw [e1]; rfl, by rw [run, h3, Outcome.bind_ok]; exact e2, e3⟩
    · rcases net_calls h3 q k x with h | ⟨ok, r, c, m, rfl, h5, h6⟩
      · rw [h] at hc; exact absurd h1 hc
      · refine ⟨[], ok, r, g, s, t, c, m, rfl, rfl, h3, ?_, h5, h6⟩
        rw [h6, List.length_append, List.length_singleton] at hc
        omega

/-- What is sent is delivered in time, when the network works. -/
theorem delivered {h : List (Ev ι E)} {s0 : Sys ι S E} {clock : S → Int} {room : S → Message Dto → Prop} (hs : run N (init N) h = .ok s0)
    (hw : Works N clock room h) {g1 g2 : List (Ev ι E)} {ev : Ev ι E} {s s' : Sys ι S E} (hg : h = g1 ++ ev :: g2) (hr : run N (init N) g1 = .ok s)
    (hst : step N s ev = .ok s') {q : ι} {k : Int × Int} {x : Int} {m : Message Dto} {e : E} {sa : Sys ι S E} (hsa : progStep N sa q e = .ok s')
    (hoff : ∀ p k x, (sa.callers p k x).offered = (s.callers p k x).offered) (hI : Inv N g1 sa)
    (hm : (k, m) ∈ given ((N.prog q).logs (sa.procs q)) ((N.prog q).logs (s'.procs q))) (hx : m.rcpt = x) {a : String} (ha : addr N q k x = some a)
    (hal : Leads N q k x) (hlate : clock (s'.procs q) + 40 < clock (s0.procs q)) :
    ∃ g3 g4 s4 r, h = g1 ++ (ev :: g3 ++ .call q k x true (some r) :: g4) ∧ run N (init N) (g1 ++ ev :: g3) = .ok s4 ∧ a ∈ N.listen r ∧
      (s4.callers q k x).msg = some m ∧ clock (s4.procs q) ≤ clock (s'.procs q) + 40 ∧ run N s' g3 = .ok s4 := by
  have hr' : run N (init N) (g1 ++ [ev]) = .ok s' := by
    rw [run_append, hr, Outcome.bind_ok, run, hst, Outcome.bind_ok]; rfl
  have hrest : run N s' g2 = .ok s0 := by
    rw [hg, run_append, hr, Outcome.bind_ok, run, hst, Outcome.bind_ok] at hs; exact hs
  obtain ⟨ms, e1, _, e3⟩ := prog_callers hsa q k x
  have hms := e3 rfl a ha m hm hx
  have e4 := (sends_trySend ms (sa.callers q k x)).1
  have e5 := (sends_trySend ms (sa.callers q k x)).2.1
  rw [← e1, hoff] at e4
  rw [← e1] at e5
  obtain ⟨j, hj, hjm⟩ := List.mem_iff_getElem.1 hms
  have hpos : (s'.callers q k x).offered[(s.callers q k x).offered.length + j]? = some m := by
    rw [e4, List.getElem?_append_right (by omega), Nat.add_sub_cancel_left, List.getElem?_eq_getElem hj, hjm]
  have hlow : (s'.callers q k x).calls.length ≤ (s.callers q k x).offered.length + j := by
    obtain ⟨ch, c1, _⟩ := hI.caller q k x
    have hi := inv_run inv_init c1
    have h1 := (hi.order.trans hi.sub).length_le
    rw [hoff, List.length_append, called, List.length_map] at h1
    rw [e5]; omega
  have hacc := hw.outbox (g1 ++ [ev]) g2 (by rw [hg]; simp) s' hr' q k x hal
  have hhigh : (s.callers q k x).offered.length + j < (s0.callers q k x).calls.length := by
    have h1 := hw.swift (g1 ++ [ev]) g2 [] (by rw [hg]; simp) s' s0 hr' (by rw [List.append_assoc]; exact hg ▸ hs) q k x hal hlate
    rw [hacc] at h1
    have := (List.getElem?_eq_some_iff.1 hpos).1
    omega
  obtain ⟨g3, ok, r, g4, s4, s5, c, m', f1, f2, f3, f4, f5, f6⟩ := crossing hrest hlow hhigh
  have hall : h = g1 ++ (ev :: g3 ++ .call q k x ok r :: g4) := by rw [hg, f1]; simp
  have hok : ok = true := hw.calls q k x ok r (by rw [hall]; simp) hal
  subst hok
  have hr4 : run N (init N) (g1 ++ ev :: g3) = .ok s4 := by
    rw [run_append, hr, Outcome.bind_ok, run, hst, Outcome.bind_ok]; exact f2
  have hr5 : run N (init N) (g1 ++ ev :: g3 ++ [.call q k x true r]) = .ok s5 := by
    rw [run_append, hr4, Outcome.bind_ok, run, f3, Outcome.bind_ok]; rfl
  have hm' : m' = m := by
    obtain ⟨ch, c1, c2⟩ := (Inv.run (h := []) Inv.init hr5).caller q k x
    obtain ⟨held, _, hl⟩ := Props.NetCaller.C53_lossless ch _ c1 fun e he hd => by
      subst hd
      have := c2 he
      rw [List.nil_append] at this
      refine hw.connected q k x hal ?_
      rw [hall]
      simp only [List.mem_append, List.mem_cons] at this ⊢
      tauto
    rw [hw.outbox _ g4 (by rw [hall]; simp) s5 hr5 q k x hal] at hl
    have hpre : (s'.callers q k x).offered <+: (s5.callers q k x).offered :=
      (offered_mono f2 q k x).trans (offered_mono (g := [.call q k x true r]) (by rw [run, f3, Outcome.bind_ok]; rfl) q k x)
    obtain ⟨t, ht⟩ := hpre
    have h1 : (s5.callers q k x).offered[(s.callers q k x).offered.length + j]? = some m := by
      rw [← ht, List.getElem?_append_left (List.getElem?_eq_some_iff.1 hpos).1]; exact hpos
    rw [← hl, f6, called, List.map_append, List.append_assoc, List.append_assoc, List.getElem?_append_right (by rw [List.length_map]; omega),
      List.length_map, f4, Nat.sub_self] at h1
    exact Option.some.inj h1
  subst hm'
  rcases step_cases f3 with ⟨p, e, h1, _⟩ | ⟨p, m, h1, _⟩ | ⟨p, l, y, e, c, h1, _⟩ | ⟨p, l, y, ok, c, h1, h2, _⟩ | ⟨p, l, y, ok, r, m, a', c, h1, h2, h3, _⟩
  · cases h1
  · cases h1
  · cases h1
  · cases h1; cases h2
  · cases h1
    have := Option.some.inj (ha.symm.trans h2)
    subst this
    refine ⟨g3, g4, s4, r, hall, hr4, h3, f5, ?_, f2⟩
    by_contra hc
    have h4 := hw.swift (g1 ++ [ev]) g3 (.call q k x true (some r) :: g4) (by rw [hall]; simp) s' s4 hr' (by rw [← hr4]; simp) q k x hal (by omega)
    rw [hacc, f4] at h4
    have := (List.getElem?_eq_some_iff.1 hpos).1
    omega

theorem run_one {s s' : Sys ι S E} {g : List (Ev ι E)} {ev : Ev ι E} {s1 : Sys ι S E} (h1 : run N s g = .ok s1) (h2 : step N s1 ev = .ok s') :
    run N s (g ++ [ev]) = .ok s' := by
  rw [run_append, h1, Outcome.bind_ok, run, h2, Outcome.bind_ok]; rfl

/-- What is sent arrives in time, when the network works, at a process that listens on the address of its queue. -/
theorem arrives {h : List (Ev ι E)} {s0 : Sys ι S E} {clock : S → Int} {room : S → Message Dto → Prop} (hs : run N (init N) h = .ok s0)
    (hw : Works N clock room h) {q : ι} {h1 h2 : List E} {e : E} (hh : s0.hist q = h1 ++ e :: h2) {s s' : S}
    (hr : (N.prog q).run (N.prog q).init h1 = .ok s) (hst : (N.prog q).step s e = .ok s') {k : Int × Int} {m : Message Dto}
    (hm : (k, m) ∈ given ((N.prog q).logs s) ((N.prog q).logs s')) {a : String} (ha : addr N q k m.rcpt = some a)
    (hal : ∃ r, a ∈ N.listen r) (hlate : clock s' + 40 < clock (s0.procs q))
    (hmono : ∀ f1 f2 f3 t1 t2, s0.hist q = f1 ++ (f2 ++ f3) → (N.prog q).run (N.prog q).init f1 = .ok t1 →
      (N.prog q).run (N.prog q).init (f1 ++ f2) = .ok t2 → clock t1 ≤ clock t2) :
    ∃ r f1 f2 sr, a ∈ N.listen r ∧ s0.hist r = f1 ++ (N.prog r).arrive m :: f2 ∧ (N.prog r).run (N.prog r).init f1 = .ok sr ∧ room sr m ∧
      clock s' - 30 < clock sr ∧ clock sr < clock s' + 70 := by
  obtain ⟨g1, ev, g2, t, t', e1, e2, e3, e4, e5⟩ := locate hs hh
  have hI := Inv.run (h := []) Inv.init e2
  rw [List.nil_append] at hI
  have hI' := Inv.run (h := []) Inv.init (run_one e2 e3)
  have hp : t.procs q = s := by
    have := hI.hist q
    rw [e4, hr] at this
    exact (Outcome.ok.inj this).symm
  have hp' : t'.procs q = s' := by
    have := hI'.hist q
    rw [e5, Prog.run_append, hr, Outcome.bind_ok, Prog.run, hst, Outcome.bind_ok] at this
    exact (Outcome.ok.inj this).symm
  rcases hist_cases e3 q with ⟨h3, _⟩ | ⟨sa, e', c1, c2, c3, c4, c5, c6⟩
  · rw [e4, e5] at h3
    exact absurd (congrArg List.length h3) (by simp)
  · rw [e5, e4] at c4
    obtain ⟨_, c4⟩ := List.append_inj c4 rfl
    injection c4 with c4
    subst c4
    obtain ⟨g3, g4, s4, r, d1, d2, d3, d4, d5, d6⟩ := delivered hs hw e1 e2 e3 c1 c5 (c6 _ hI) (k := k) (x := m.rcpt) (m := m)
      (by rw [c2, hp, hp']; exact hm) rfl ha (by obtain ⟨r, hr⟩ := hal; exact ⟨a, r, ha, hr⟩) (by rw [hp']; exact hlate)
    rw [hp'] at d5
    obtain ⟨b1, b2, b3⟩ := hw.inbox (g1 ++ ev :: g3) q k m.rcpt true r g4 (by rw [d1]; simp) s4 m d2 d4
    have hI4 := Inv.run (h := []) Inv.init d2
    -- the clock of the sender
    have hlow : clock s' ≤ clock (s4.procs q) := by
      obtain ⟨x, hx⟩ := hist_mono d6 q
      have hrest : run N s4 (.call q k m.rcpt true (some r) :: g4) = .ok s0 := by
        rw [d1, ← List.append_assoc, run_append, d2, Outcome.bind_ok] at hs; exact hs
      obtain ⟨y, hy⟩ := hist_mono hrest q
      refine hmono (t'.hist q) x y _ _ (by rw [← hy, ← hx, List.append_assoc]) ?_ ?_
      · rw [← hp']; exact hI'.hist q
      · rw [hx]; exact hI4.hist q
    have hrest : run N s4 (.call q k m.rcpt true (some r) :: g4) = .ok s0 := by
      rw [d1, ← List.append_assoc, run_append, d2, Outcome.bind_ok] at hs; exact hs
    rw [run, Outcome.bind_eq_ok] at hrest
    obtain ⟨s5, f1, f2⟩ := hrest
    rcases step_cases f1 with ⟨p, e, h1, _⟩ | ⟨p, m, h1, _⟩ | ⟨p, l, y, e, c, h1, _⟩ | ⟨p, l, y, ok, c, h1, h2, _⟩ |
      ⟨p, l, y, ok, r', m', a', c, h1, h2, h3, h4, h5, h6⟩
    · cases h1
    · cases h1
    · cases h1
    · cases h1
    · cases h1
      have := Option.some.inj (d4.symm.trans h4)
      subst this
      obtain ⟨_, _, _, _, e0⟩ := prog_ok h6
      have hh5 : s5.hist r = s4.hist r ++ [(N.prog r).arrive m] := by rw [e0]; exact put_self _ _ _
      obtain ⟨y, hy⟩ := hist_mono f2 r
      refine ⟨r, s4.hist r, y, s4.procs r, d3, ?_, hI4.hist r, b1, by omega, by omega⟩
      rw [← hy, hh5, List.append_assoc]
      rfl

end Verif.Network
