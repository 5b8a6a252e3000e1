import Verif.Proofs.ProgramGiven
import Verif.Proofs.DkgSent

/-! When a prompt process sends the messages of a request. -/
namespace Verif.Program
open Verif.Prot Verif.Dto Verif.Dss Verif.Dkg Verif.Signode Verif.Spec.Prot Verif.Spec.Program
open Verif.Registry (lt_of_some)
variable {K : Type} {c : Cfg K} {W : Message Dto → Prop}

theorem run_sent {s s' : Sys K} {h : List Ev} (hg : c.guests.Nodup) {h0 : List Ev} (hr0 : run c (init c) h0 = .ok s)
    (hd : ((requests (h0 ++ h)).map jobId).Nodup) (hr : run c s h = .ok s') {m : Message Dto} {r : Nat} {o : Registry.Obj}
    {u : Run Dto Obj (Data K)} (ho : s.node.reg.objs[r]? = some o) (hu : s.runs[r]? = some u) (hm : .sent m ∈ u.log) :
    ∃ v ∈ s'.runs, .sent m ∈ v.log := by
  induction h generalizing s h0 r o u with
  | nil => rw [run] at hr; rw [← Outcome.ok.inj hr]; exact ⟨u, List.mem_of_getElem? hu, hm⟩
  | cons e h ih =>
    rw [run, Outcome.bind_eq_ok] at hr
    obtain ⟨s1, h1, h2⟩ := hr
    have e1 : h0 ++ e :: h = (h0 ++ [e]) ++ h := by simp
    rw [e1] at hd
    have hr1 := run_snoc hr0 h1
    have hR : Reach c s := ⟨_, hr0, nodup_prefix (nodup_prefix hd)⟩
    have hR1 : Reach c s1 := ⟨_, hr1, nodup_prefix hd⟩
    obtain ⟨o', u', g1, _, g3, g4⟩ := run_fwd (hR.known hg) (hR1.known hg) h1 ho hu
    exact ih hr1 hd h2 g1 g3 (g4.subset hm)

/-- A message of a request is sent when its stage is entered. -/
theorem sent_time {h1 h2 g1 g2 : List Ev} {e : Ev} {j : Job} {m : Message Dto} {s1 t t' s : Sys K} (hg : c.guests.Nodup)
    (hbuf : (c.allow j).buf ≤ (c.allow j).start) (hdrop : c.dropUntil ≤ (c.allow j).start)
    (hr1 : run c (init c) h1 = .ok s1) (hin : s1.node.fw.now ≤ (c.allow j).start) (hr : run c (init c) (h1 ++ .request j :: h2) = .ok s)
    (hd : ((requests (h1 ++ .request j :: h2)).map jobId).Nodup) (hp : Prompt c (h1 ++ .request j :: h2))
    (he : h1 ++ .request j :: h2 = g1 ++ e :: g2) (ht : run c (init c) g1 = .ok t) (hs : step c t e = .ok t')
    (hid : m.runId = jobId j) (hold : ∀ u ∈ t.runs, .sent m ∉ u.log) (hnew : ∃ u ∈ t'.runs, .sent m ∈ u.log) :
    m.op ∈ [1, 2, 3, 5, 6, 7, 10] ∧ t.node.fw.now = (c.allow j).start + ends (m.op - 1) + 5 ∧ ∃ v ∈ s.runs, .sent m ∈ v.log := by
  have hwhole : h1 ++ .request j :: h2 = (g1 ++ [e]) ++ g2 := by rw [he]; simp
  have hd2 := hd
  rw [hwhole] at hd2
  have hR : Reach c t := ⟨_, ht, nodup_prefix (nodup_prefix hd2)⟩
  have hrt' := run_snoc ht hs
  have hR' : Reach c t' := ⟨_, hrt', nodup_prefix hd2⟩
  have hK := hR.known hg
  have hK' := hR'.known hg
  obtain ⟨u', hu', hm⟩ := hnew
  obtain ⟨r, hr'⟩ := List.mem_iff_getElem?.1 hu'
  have hops : m.op ∈ [1, 2, 3, 5, 6, 7, 10] := by
    have ho' := List.getElem?_eq_getElem (show r < t'.node.reg.objs.length by rw [← hK'.p.u.len]; exact lt_of_some hr')
    obtain ⟨b', hb', _, _, f1⟩ := job_of hK'.p.n hK'.p.j ho'
    obtain ⟨_, _, _, hx'⟩ := hK'.p.u.trace r _ u' ho' hr' b' hb' (by rw [f1])
    exact dss_ops ((track_exec (dss_keeps _ _ _) (newData_signing _) hx').req m (Verif.Props.sent_requested hx' hm))
  have hpos : 1 ≤ m.op := by
    simp only [List.mem_cons, List.not_mem_nil, or_false] at hops
    omega
  refine ⟨hops, ?_, ?_⟩
  · rcases run_change hK hs hr' with h | ⟨_, k, t0, rfl⟩ | ⟨u, o, b, pe, hu, ho, hb, _, hinv, hst⟩
    · exact absurd hm (hold _ (List.mem_of_getElem? h))
    · exact absurd hm (by simp [newRun])
    · have hold' : .sent m ∉ ({ u with now := t.node.fw.now } : Run Dto Obj (Data K)).log := hold u (List.mem_of_getElem? hu)
      obtain ⟨_, q1, q2⟩ := sent_entering dss_ahead hinv hst hold' hm
      have q1 : u.state = m.op - 1 := q1
      -- the run is one of the request
      obtain ⟨b1, hb1, _, hgu, hk⟩ := job_of hK.p.n hK.p.j ho
      have hrun : o.key.runId = jobId j := by
        obtain ⟨o', ho', hk'⟩ := objs_fwd hs ho
        obtain ⟨b', hb', _, _, f1⟩ := job_of hK'.p.n hK'.p.j ho'
        obtain ⟨_, _, _, hx'⟩ := hK'.p.u.trace r o' u' ho' hr' b' hb' (by rw [f1])
        obtain ⟨l1, l2, e⟩ := List.append_of_mem (Verif.Props.sent_requested hx' hm)
        obtain ⟨_, _, f3⟩ := (agree_exec hx').inv.core.legal l1 _ l2 e
        have f3 : m.runId = o'.key.runId := f3
        rw [← hk', ← f3, hid]
      have hb1j : jobId b1.job = jobId j := by rw [← hrun, hk]
      have hreq : b1.job ∈ requests g1 := by
        have : b1.job ∈ reqs t := List.mem_map_of_mem hb1
        rw [reqs_run ht] at this
        exact this
      obtain ⟨k, rfl⟩ : ∃ k, g1 = h1 ++ .request j :: k := by
        have bad : ∀ as, h1 = g1 ++ as → False := by
          rintro as rfl
          rw [requests_append, requests_append, requests, List.map_append, List.map_cons] at hd
          exact (List.nodup_append.1 hd).2.2 _ (List.mem_map_of_mem (List.mem_append_left _ hreq)) _ List.mem_cons_self hb1j
        rcases List.append_eq_append_iff.1 he with ⟨as, e1, e2⟩ | ⟨as, e1, e2⟩
        · cases as with
          | nil => exact (bad [] (by simpa using e1.symm)).elim
          | cons a as =>
            rw [List.cons_append] at e2
            injection e2 with e2 e3
            exact ⟨as, by rw [e1, ← e2]⟩
        · exact (bad as e1).elim
      have hp1 : Prompt c (h1 ++ .request j :: k) := by
        rw [hwhole] at hp
        exact prompt_prefix (prompt_prefix hp)
      have hS := sched hg hgu hbuf hdrop hr1 hin ht (nodup_prefix (nodup_prefix hd2)) hp1
      have hT := hS.time r o u ho (by rw [hk, ← hrun]; rw [hk]) hu
      rw [OnTime] at hT
      rcases q2 with q2 | ⟨q2, q3⟩
      · have q2 : u.phase = .started := q2
        have := (hinv.fresh (.inr q2)).1
        have : u.state = -1 := this
        omega
      · have q2 : u.phase = .pausing := q2
        have q3 : u.pauseEnd ≤ t.node.fw.now := q3
        rw [q2] at hT
        dsimp only at hT
        rw [← q1]
        omega
  · have hlt : r < t'.node.reg.objs.length := by rw [← hK'.p.u.len]; exact lt_of_some hr'
    rw [hwhole] at hr
    obtain ⟨t2, f1, f2⟩ := run_append_ok hr
    have := Outcome.ok.inj (hrt'.symm.trans f1)
    subst this
    exact run_sent hg hrt' hd2 f2 (List.getElem?_eq_getElem hlt) hr' hm

end Verif.Program
