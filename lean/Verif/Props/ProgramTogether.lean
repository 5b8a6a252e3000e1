import Verif.Props.SigningSends
import Verif.Props.ProgramPrompt

/-! C91, for several processes at once. -/
namespace Verif.Props.Program
open Verif.Prot Verif.Dto Verif.Dss Verif.Dkg Verif.Point Verif.Tables Verif.Signode Verif.Program Verif.Props Verif.Spec.Prot Verif.Spec.Program
variable {K : Type}

/-- What has been sent was sent at some time. -/
theorem sends_of {c : Cfg K} (h : List Ev) {s : Sys K} (hr : Verif.Program.run c (init c) h = .ok s) {m : Message Dto}
    (hm : ∃ u ∈ s.runs, .sent m ∈ u.log) : ∃ t, Sends c h m t := by
  induction h using List.reverseRecOn generalizing s with
  | nil =>
    rw [Verif.Program.run] at hr
    rw [← Outcome.ok.inj hr] at hm
    obtain ⟨u, hu, _⟩ := hm
    exact absurd hu List.not_mem_nil
  | append_singleton h e ih =>
    obtain ⟨s1, h1, h2⟩ := run_append_ok hr
    rw [Verif.Program.run, Outcome.bind_eq_ok] at h2
    obtain ⟨s2, h2, h3⟩ := h2
    rw [Verif.Program.run] at h3
    have h3 := Outcome.ok.inj h3
    subst h3
    by_cases hold : ∃ u ∈ s1.runs, .sent m ∈ u.log
    · obtain ⟨t, g1, e', g2, t1, t2, rfl, h⟩ := ih h1 hold
      exact ⟨t, g1, e', g2 ++ [e], t1, t2, by simp, h⟩
    · exact ⟨_, h, e, [], s1, s2, rfl, h1, h2, rfl, fun u hu hc => hold ⟨u, hu, hc⟩, hm⟩

variable {H : List UInt8 → List UInt8} {SH : Share → List UInt8} {g : Group}

/-- Processes sign a document together, and nothing is late in any of them. Each reads its request before the start, which is the same for all, and
has gone on for more than 650 ms after it. -/
structure Together (H : List UInt8 → List UInt8) (SH : Share → List UInt8) (g : Group) (t0 : Int) (ps : List (Process K × Job)) : Prop where
  ready : ∀ p ∈ ps, p.1.Ready H SH g
  signs : ∀ p ∈ ps, p.1.Signs g p.2
  prompt : ∀ p ∈ ps, Prompt p.1.c p.1.h
  asked : ∀ p ∈ ps, Asked p.1.c p.1.h p.2
  start : ∀ p ∈ ps, (p.1.c.allow p.2).start = t0
  now : ∀ p ∈ ps, t0 + 650 < p.1.s.node.fw.now

/-- C91 (all). Let processes sign a document together, none of them late, and let at least `T` members be guests of them. Let no run for the
request be abandoned before the partial signatures are exchanged, and all these members be in the QUAL of every run. If each partial signature
that is sent to one of these members arrives less than 70 ms later, as far as the clocks tell, and is not thrown away for want of room, then
there is a signature that verifies and that every process has printed for every guest, whatever else has arrived. -/
theorem C91_all (hH : ∀ b, (H b).length = 32) (hg : g.Sound) (start : Int) (ps : List (Process K × Job)) (hps : Together H SH g start ps)
    (xs : List Int) (hnd : xs.Nodup) (hT : g.T ≤ xs.length) (hxs : ∀ x ∈ xs, ∃ p ∈ ps, x ∈ p.1.c.guests)
    (hgo : ∀ p ∈ ps, ∀ (r : Nat) (o : Registry.Obj) (u : Prot.Run Dto Obj (Data K)), p.1.s.node.reg.objs[r]? = some o → o.key.runId = g.id →
      p.1.s.runs[r]? = some u → ∀ l1 l2, u.log = l1 ++ .abandoned :: l2 → 9 < stageOf l1)
    (hqual : ∀ p ∈ ps, ∀ (r : Nat) (o : Registry.Obj) (u : Prot.Run Dto Obj (Data K)), p.1.s.node.reg.objs[r]? = some o → o.key.runId = g.id →
      p.1.s.runs[r]? = some u → ∀ q ∈ ps, ∀ y ∈ q.1.c.guests, (∀ Q, u.user.qual = some Q → y ∈ Q) ∧
        ∀ random, (p.1.c.y o.key.gidx r).distKeyShare u.user.kyb = .ok random → y ∈ (p.1.c.y o.key.gidx r).qual u.user.kyb)
    (hnet : ∀ p ∈ ps, ∀ q ∈ ps, ∀ (m : Message Dto) (t : Int), Sends q.1.c q.1.h m t → m.pc = 1 → m.runId = g.id → m.op = 10 →
      m.rcpt ∈ p.1.c.guests → ∃ t', Arrives p.1.c p.1.h m t' ∧ t - 555 < t' ∧ t' < t + 70) :
    ∃ sig, Schnorr.verify H (.pt (timesAdd base (g.ls.headD 0))) g.doc sig = .ok () ∧
      ∀ p ∈ ps, ∃ b ∈ p.1.s.jobs, b.job = p.2 ∧ b.pc = .ended ∧ b.lines.Perm (p.1.c.guests.map fun x => (x, some sig)) := by
  have one : ∀ p ∈ ps, ∀ x ∈ p.1.c.guests, ∃ b ∈ p.1.s.jobs, b.job = p.2 ∧ b.pc = .ended ∧
      ∃ sig, (x, some sig) ∈ b.lines ∧ Schnorr.verify H (.pt (timesAdd base (g.ls.headD 0))) g.doc sig = .ok () := by
    intro p hp x hx
    refine C91_prints hH hg p.1 (hps.ready p hp) p.2 (hps.signs p hp) (hps.prompt p hp) (hps.asked p hp)
      (by rw [hps.start p hp]; exact hps.now p hp) x hx (fun r o u f1 f2 f3 => hgo p hp r o u f1 (by rw [f2]) f3)
      (xs.erase x) (hnd.erase x) (fun hc => by rw [hnd.mem_erase_iff] at hc; exact hc.1 rfl) ?_ ?_ ?_
    · have : xs.length ≤ (xs.erase x).length + 1 := by
        by_cases hm : x ∈ xs
        · rw [List.length_erase_of_mem hm]; omega
        · rw [List.erase_of_not_mem hm]; omega
      omega
    · intro r o u f1 f2 f3 y hy random hk
      obtain ⟨q, hq, hyq⟩ := hxs y (List.mem_of_mem_erase hy)
      have hgx : o.key.gidx = x := by rw [f2]
      have := (hqual p hp r o u f1 (by rw [f2]) f3 q hq y hyq).2 random
      rw [hgx] at this
      exact this hk
    · intro y hy
      rw [hnd.mem_erase_iff] at hy
      obtain ⟨q, hq, hyq⟩ := hxs y hy.2
      obtain ⟨b, hb, hbj, _, hperm⟩ := C91_ends q.1.c q.1.h q.1.s (hps.ready q hq).run (hps.ready q hq).guests (hps.ready q hq).ids (hps.prompt q hq) q.2
        (hps.asked q hq) (by rw [hps.start q hq]; exact hps.now q hq)
      obtain ⟨l, hl, hly⟩ := List.mem_map.1 (hperm.mem_iff.2 hyq)
      obtain ⟨r, o, u, f1, f2, f3, f4, _⟩ := line_run (hps.ready q hq) hb hl
      rw [hly, hbj, (hps.signs q hq).id] at f2
      have hid : o.key.runId = g.id := by rw [f2]
      have hgi : o.key.gidx = y := by rw [f2]
      obtain ⟨i, t0, hist, e1, e2⟩ := honest_run (hps.ready q hq) (hps.signs q hq) f1 hid f3
      have hterm : u.terminated = true := by
        have := (agree_exec e2.run).inv.term
        have h6 : u.terminated = decide (u.phase = .done) := this
        rw [h6, f4]; rfl
      have h10 : 10 ≤ u.state := by
        have := ended_stage e2.run hterm
        have h6 : u.state + 1 = 12 := this
        omega
      obtain ⟨m, m1, m2, m3, m4⟩ := honest_sends hH hg e2 h10 (hgo q hq r o u f1 hid f3)
        (fun Q hQ => (hqual q hq r o u f1 hid f3 p hp x hx).1 Q hQ) (by rw [← e1, hgi]; exact fun h => hy.1 h.symm)
      obtain ⟨t, ht⟩ := sends_of q.1.h (hps.ready q hq).run ⟨u, List.mem_of_getElem? f3, m1⟩
      obtain ⟨t', h1, h2, h3⟩ := hnet p hp q hq m t ht (congrArg RunKey.pc m3) (congrArg RunKey.runId m3) m4
        (by have : m.rcpt = x := congrArg RunKey.gidx m3
            rw [this]; exact hx)
      exact ⟨q.1, q.2, m, t, t', hps.ready q hq, hps.signs q hq, hps.prompt q hq, hps.asked q hq, by rw [hps.start q hq, hps.start p hp],
        by rw [m2, ← e1, hgi], m3, m4, ht, h1, h2, h3⟩
  obtain ⟨x0, hx0⟩ : ∃ x, x ∈ xs := by
    cases xs with
    | nil =>
      have := hg.random
      have h1 : 0 < g.rs.length := List.length_pos_iff.2 this.1
      have h2 : g.T ≤ 0 := hT
      omega
    | cons x _ => exact ⟨x, List.mem_cons_self ..⟩
  obtain ⟨p0, hp0, hg0⟩ := hxs x0 hx0
  obtain ⟨b0, hb0, hj0, _, sig, hs0, hv⟩ := one p0 hp0 x0 hg0
  refine ⟨sig, hv, fun p hp => ?_⟩
  obtain ⟨b, hb, hbj, hend, hperm⟩ := C91_ends p.1.c p.1.h p.1.s (hps.ready p hp).run (hps.ready p hp).guests (hps.ready p hp).ids (hps.prompt p hp) p.2
    (hps.asked p hp) (by rw [hps.start p hp]; exact hps.now p hp)
  refine ⟨b, hb, hbj, hend, ?_⟩
  have same : ∀ l ∈ b.lines, l.2 = some sig := by
    intro l hl
    obtain ⟨b', hb', hbj', _, sig', hs', _⟩ := one p hp l.1 (hperm.mem_iff.1 (List.mem_map.2 ⟨l, hl, rfl⟩))
    have hbb : b' = b := by
      obtain ⟨h1, _, _⟩ := inv_of (W := fun _ => True) (hps.ready p hp).run (hps.ready p hp).guests (hps.ready p hp).ids (fun _ _ => trivial)
      have hn : (p.1.s.jobs.map fun b => jobId b.job).Nodup := by
        have := (hps.ready p hp).ids
        rw [← h1, reqs, List.map_map] at this
        exact this
      exact List.inj_on_of_nodup_map hn hb' hb (by rw [hbj, hbj'])
    subst hbb
    have hl2 : l = (l.1, some sig') := List.inj_on_of_nodup_map (hperm.nodup_iff.2 (hps.ready p hp).guests) hl hs' rfl
    have hsig := (C80_same hH hg p.1 p0.1 (hps.ready p hp) (hps.ready p0 hp0) p.2 p0.2 (hps.signs p hp) (hps.signs p0 hp0) b' b0 hb hb0 hbj hj0
      l.1 x0 sig' sig hs' hs0).1
    rw [hl2, hsig]
  have : b.lines = (b.lines.map Prod.fst).map fun x => (x, some sig) := by
    rw [List.map_map]
    conv_lhs => rw [← List.map_id b.lines]
    refine List.map_congr_left fun l hl => ?_
    show l = (l.1, some sig)
    rw [← same l hl]
  rw [this]
  exact hperm.map _

end Verif.Props.Program
