import Verif.Proofs.Network
import Verif.Props.NetLoad

/-!
Property C109 for several processes: the assumption of C103 that the network works follows from what is said about dialling, calls, threads and load.
-/
namespace Verif.Props.NetTime
open Verif.Dkg Verif.Network Verif.Spec.Network
open Verif.Spec.NetTime (Prompt Answers Load stamps)
variable {ι S E : Type} [DecidableEq ι] {N : Net ι S E} {clock : S → Int} {h : List (Ev ι E)} {D L : Int} {B : Nat}

/-- What is known of a queue at some time, with the history of it up to then. -/
theorem queue_at (hD : 0 ≤ D) (hL : 0 ≤ L) (hB : B ≤ 1000) (hW : (B : Int) * L ≤ 40) {p : ι} {k : Int × Int} {x : Int}
    {q : List (NetTime.Ev (Message Dto))} (ha : Account N clock h p k x q) (hp : Prompt D L (NetTime.init (clock (N.prog p).init)) q) (hq : Answers q)
    (hst : ∀ a ∈ stamps (clock (N.prog p).init) q, clock (N.prog p).init + 2000 + D < a) (hld : Load B 40 (stamps (clock (N.prog p).init) q))
    {g1 g2 : List (Ev ι E)} (hh : h = g1 ++ g2) {s : Sys ι S E} (hs : run N (init N) g1 = .ok s) :
    ∃ q1 q2 z, q = q1 ++ q2 ∧ NetTime.run (NetTime.init (clock (N.prog p).init)) q1 = .ok z ∧ z.base = s.callers p k x ∧ z.now = clock (s.procs p) ∧
      LI (clock (N.prog p).init) D L 40 (stamps (clock (N.prog p).init) q1) z := by
  obtain ⟨q1, q2, z, h1, h2, h3, h4⟩ := ha g1 g2 hh s hs
  refine ⟨q1, q2, z, h1, h2, h3, h4, ?_⟩
  subst h1
  rw [stamps_append] at hst hld
  exact li_run hD hL hB hW (prompt_split hp h2).1
    ⟨fun i r hm => hq.1 i r (List.mem_append_left _ hm), fun ok hm => hq.2 ok (List.mem_append_left _ hm)⟩
    (fun a hm => hst a (List.mem_append_left _ hm)) (load_prefix hld) h2

/-- C109 (network). The network works, as C103 assumes, if the peers of the processes answer quickly and the load is small: if dialling takes at most `D` and a
call at most `L`, all succeed, the threads of the queues are not late, nothing is sent in the first two seconds and `D` of a process, and within 40 ms
no more than `B` messages are given to a queue, where `B` calls take no longer than 40 ms. -/
theorem C109_works (hD : 0 ≤ D) (hL : 0 ≤ L) (hB : B ≤ 1000) (hW : (B : Int) * L ≤ 40) {S0 : Sys ι S E} (hr : run N (init N) h = .ok S0)
    (hq : Quick N clock h D L B) {room : S → Message Dto → Prop} (hi : Inbox N clock room h) : Works N clock room h := by
  have before : ∀ {g1 : List (Ev ι E)} {ev : Ev ι E} {g2 : List (Ev ι E)}, h = g1 ++ ev :: g2 →
      ∃ s s', run N (init N) g1 = .ok s ∧ step N s ev = .ok s' ∧ run N (init N) (g1 ++ [ev]) = .ok s' := by
    intro g1 ev g2 hh
    rw [hh, run_append, Outcome.bind_eq_ok] at hr
    obtain ⟨s, h1, h2⟩ := hr
    rw [run, Outcome.bind_eq_ok] at h2
    obtain ⟨s', h3, _⟩ := h2
    exact ⟨s, s', h1, h3, run_one h1 h3⟩
  refine ⟨fun p k x ok r hm hl => ?_, fun p k x hl hm => ?_, fun g1 g2 hh s hs p k x hl => ?_, fun g1 g2 g3 hh s s' hs hs' p k x hl hc => ?_, hi⟩
  · obtain ⟨q, a1, a2, a3, a4, a5⟩ := hq p k x hl
    obtain ⟨g1, g2, hh⟩ := List.append_of_mem hm
    obtain ⟨s, s', h1, h2, h3⟩ := before hh
    obtain ⟨q1, q2, z, -, -, e3, -, hli⟩ := queue_at hD hL hB hW a1 a2 a3 a4 a5 (g1 := g1 ++ [.call p k x ok r]) (g2 := g2) (by rw [hh, List.append_assoc]; rfl) h3
    have hcall : ∃ c m, (c, m, ok) ∈ (s'.callers p k x).calls := by
      have key : ∀ {t : Sys ι S E} {c : NetCaller.St (Message Dto)}, NetCaller.step (s.callers p k x) (.call ok) = .ok c →
          (t.callers p k x).calls = c.calls → ∃ c m, (c, m, ok) ∈ (t.callers p k x).calls := by
        intro t c h4 h5
        rcases calls_step h4 with ⟨_, h6⟩ | ⟨ok', c0, m, h6, _, h7⟩
        · exact absurd rfl (h6 ok)
        · cases h6
          exact ⟨c0, m, by rw [h5, h7]; exact List.mem_append_right _ (List.mem_singleton_self _)⟩
      rcases step_cases h2 with ⟨_, _, he, _⟩ | ⟨_, _, he, _⟩ | ⟨_, _, _, _, _, he, _⟩ | ⟨_, _, _, _, c, he, _, h4, h5⟩ | ⟨_, _, _, _, _, m, _, c, he, _, _, _, h4, h5⟩
      · cases he
      · cases he
      · cases he
      · cases he
        exact key h4 (by rw [h5, putCaller_self])
      · cases he
        obtain ⟨ms, e1, _⟩ := prog_callers h5 p k x
        exact key h4 (by rw [e1, (sends_trySend ms _).2.1, putCaller_self])
    obtain ⟨c, m, hcm⟩ := hcall
    rw [← e3] at hcm
    exact hli.good _ hcm
  · obtain ⟨q, a1, a2, a3, a4, a5⟩ := hq p k x hl
    obtain ⟨g1, g2, hh⟩ := List.append_of_mem hm
    obtain ⟨s, s', h1, h2, _⟩ := before hh
    obtain ⟨q1, q2, z, -, -, e3, -, hli⟩ := queue_at hD hL hB hW a1 a2 a3 a4 a5 hh h1
    rcases step_cases h2 with ⟨_, _, he, _⟩ | ⟨_, _, he, _⟩ | ⟨_, _, _, _, c, he, _, _, h4, _⟩ | ⟨_, _, _, _, _, he, _⟩ | ⟨_, _, _, _, _, _, _, _, he, _⟩ <;> cases he
    have := (NetTime.inv_selDrop h4).1
    rw [← e3] at this
    rcases hli.di.shape with ⟨k1, _⟩ | ⟨k1, _⟩ | ⟨k1 | k1 | k1, _⟩ <;> (rw [this] at k1; cases k1)
  · obtain ⟨q, a1, a2, a3, a4, a5⟩ := hq p k x hl
    obtain ⟨q1, q2, z, -, -, e3, -, hli⟩ := queue_at hD hL hB hW a1 a2 a3 a4 a5 hh hs
    rw [← e3]; exact hli.all.symm
  · obtain ⟨q, a1, a2, a3, a4, a5⟩ := hq p k x hl
    obtain ⟨q1, q2, z, f1, f2, f3, f4, hli⟩ := queue_at hD hL hB hW a1 a2 a3 a4 a5 hh hs
    obtain ⟨q1', q2', z', f1', f2', f3', f4', hli'⟩ := queue_at hD hL hB hW a1 a2 a3 a4 a5 (g1 := g1 ++ g2) (g2 := g3) (by rw [hh, List.append_assoc]) hs'
    rw [← f4, ← f4'] at hc
    rw [← f3, ← f3']
    -- the history of the queue up to the first time begins that up to the second
    obtain ⟨d, hd⟩ : q1 <+: q1' := by
      rcases List.prefix_or_prefix_of_prefix (List.prefix_append q1 q2) (f1 ▸ f1' ▸ List.prefix_append q1' q2') with hp | ⟨d, hd⟩
      · exact hp
      · exfalso
        rw [← hd, NetTime.run_append, f2', Outcome.bind_ok] at f2
        have := now_mono_run f2
        omega
    subst hd
    rw [stamps_append] at hli'
    rcases Nat.eq_zero_or_pos z.base.accepted.length with h0 | h0
    · omega
    obtain ⟨a, ha⟩ : ∃ a, (stamps (clock (N.prog p).init) q1)[z.base.accepted.length - 1]? = some a :=
      ⟨_, List.getElem?_eq_getElem (by rw [← hli.len]; omega)⟩
    have hle : a ≤ z.now := stamps_le f2 a (List.mem_of_getElem? ha)
    have := li_late hL hli' (z.base.accepted.length - 1) a
      (by rw [List.getElem?_append_left (List.getElem?_eq_some_iff.1 ha).1]; exact ha) (by omega)
    omega

end Verif.Props.NetTime
