import Verif.Proofs.Console
import Verif.Props.Print
import Verif.Props.ProgramLive
import Verif.Props.RabinTogether

/-!
C122: the signing tool from what is typed on standard input to what is printed on standard output.
-/
namespace Verif.Props.Console
open Verif.Prot Verif.Point Verif.Signode Verif.Scan Verif.Console Verif.Props.Program Verif.Props.Print
open Verif.Spec.Program Verif.Spec.Console
open Verif.Program (reqs JobSt)
open Verif.Print (doneText lineText sigText)
variable {K : Type} {parse : String → Option Int} {dflt : Int} {c : Program.Cfg K}

/-- The requests in a text that the tool acts on: three words each, with a time and a number that can be read. -/
def wanted (parse : String → Option Int) (dflt : Int) (text : List Char) : List Job := (readRequests text).filterMap (runSig1 parse dflt)

theorem inside {es : List Console.Ev} {s : Console.Sys K} (hr : Console.run parse dflt c (Console.init c) es = .ok s) :
    Print.run c (Program.init c) (trace parse dflt c (Console.init c) es) = .ok (s.prog, s.out) := by
  obtain ⟨o, h1, h2⟩ := trace_ok hr
  rw [h2]
  exact h1

theorem requests_inside {es : List Console.Ev} {s : Console.Sys K} (hr : Console.run parse dflt c (Console.init c) es = .ok s) :
    Program.run c (Program.init c) (trace parse dflt c (Console.init c) es) = .ok s.prog ∧
    requests (trace parse dflt c (Console.init c) es) = reqs s.prog := by
  have h := (C93_output _ _ _ _ (inside hr)).1
  exact ⟨h, (Program.reqs_run h).symm⟩

theorem looked_sublist (s : Console.Sys K) : ((looked s).map Go.req).Sublist (s.gos.map Go.req) := List.filter_sublist.map _

/-- C122 (what is typed is what is done). At every moment the requests that the tool works at are, in some order, those that can be read among some of the triples
of words in what has come from standard input, each taken once. -/
theorem C122_reads (es : List Console.Ev) (s : Console.Sys K) (hr : Console.run parse dflt c (Console.init c) es = .ok s) :
    ∃ l : List Request, l.Sublist (readRequests s.text) ∧ (s.prog.jobs.map JobSt.job).Perm (l.filterMap (runSig1 parse dflt)) := by
  have hi := (Verif.Console.Inv.init parse dflt c).run hr
  exact ⟨(looked s).map Go.req, (looked_sublist s).trans (hi.pre.sublist.trans (delivered_prefix s).sublist), hi.jobs⟩

theorem all_ended {es : List Console.Ev} {s : Console.Sys K} (hr : Console.run parse dflt c (Console.init c) es = .ok s) (hl : s.left = true) :
    (s.prog.jobs.map JobSt.job).Perm (wanted parse dflt s.text) ∧ ∀ b ∈ s.prog.jobs, b.pc = .ended := by
  have hi := (Verif.Console.Inv.init parse dflt c).run hr
  obtain ⟨h1, h2⟩ := hi.left hl
  rw [List.all_eq_true] at h2
  have hlk : looked s = s.gos := by
    refine List.filter_eq_self.2 fun g hg => ?_
    have := h2 g hg
    unfold over at this
    cases hp : g.pc with
    | fresh => rw [hp] at this; cases this
    | refused => rfl
    | running k => rfl
  constructor
  · have := hi.jobs
    rw [hlk, h1] at this
    exact this
  · intro b hb
    obtain ⟨k, hk⟩ := List.getElem?_of_mem hb
    have hlt := (List.getElem?_eq_some_iff.1 hk).1
    have : k ∈ s.gos.filterMap Go.idx := hi.idx.mem_iff.2 (List.mem_range.2 hlt)
    obtain ⟨g, hg, hx⟩ := List.mem_filterMap.1 this
    have ho := h2 g hg
    unfold Go.idx at hx
    unfold over at ho
    cases hp : g.pc with
    | fresh => rw [hp] at ho; cases ho
    | refused => rw [hp] at hx; cases hx
    | running k' =>
      rw [hp] at hx ho
      cases hx
      rw [decide_eq_true_eq, hk] at ho
      exact Option.some.inj ho

/-- C122 (the end). When the tool has left, it has acted once on every request in what came from standard input that can be read, each of them has ended, and
what is on standard output are, in some order, the lines of these requests and nothing else; if the requests have different run identifiers, this is
a line that says that the runs have ended and a line for each guest. -/
theorem C122_left (es : List Console.Ev) (s : Console.Sys K) (hr : Console.run parse dflt c (Console.init c) es = .ok s) (hl : s.left = true) :
    (s.prog.jobs.map JobSt.job).Perm (wanted parse dflt s.text) ∧ (∀ b ∈ s.prog.jobs, b.pc = .ended) ∧
    s.out.Perm (s.prog.jobs.flatMap fun b => doneText (jobId b.job) :: b.lines.map (lineText (jobId b.job))) ∧
    (c.guests.Nodup → ((wanted parse dflt s.text).map jobId).Nodup → (∀ b ∈ s.prog.jobs, (b.lines.map Prod.fst).Perm c.guests) ∧
      s.out.length = (wanted parse dflt s.text).length * (c.guests.length + 1)) := by
  obtain ⟨h1, h2⟩ := all_ended hr hl
  obtain ⟨h3, h4⟩ := requests_inside hr
  obtain ⟨_, _, _, _, _, h5⟩ := C93_output _ _ _ _ (inside hr)
  have he : s.prog.jobs.flatMap jobText = s.prog.jobs.flatMap fun b => doneText (jobId b.job) :: b.lines.map (lineText (jobId b.job)) := by
    refine List.flatMap_congr fun b hb => ?_
    rw [jobText, if_pos (.inr (h2 b hb))]; rfl
  rw [he] at h5
  refine ⟨h1, h2, h5, fun hg hd => ?_⟩
  have hd' : ((requests (trace parse dflt c (Console.init c) es)).map jobId).Nodup := by
    rw [h4]; exact (h1.map jobId).nodup_iff.2 hd
  have hp : ∀ b ∈ s.prog.jobs, (b.lines.map Prod.fst).Perm c.guests := fun b hb => ((C75_origin c _ _ h3 hg hd').2 b hb).1 (h2 b hb)
  refine ⟨hp, ?_⟩
  rw [h5.length_eq, ← h1.length_eq, List.length_map]
  have key : ∀ l : List JobSt, (∀ b ∈ l, (b.lines.map Prod.fst).Perm c.guests) →
      (l.flatMap fun b => doneText (jobId b.job) :: b.lines.map (lineText (jobId b.job))).length = l.length * (c.guests.length + 1) := by
    intro l
    induction l with
    | nil => intro _; simp
    | cons b l ih =>
      intro h
      have h6 := (h b List.mem_cons_self).length_eq
      rw [List.length_map] at h6
      rw [List.flatMap_cons, List.length_append, ih fun b hb => h b (List.mem_cons_of_mem _ hb), List.length_cons, List.length_map, List.length_cons, h6,
        Nat.add_mul, Nat.one_mul, Nat.add_comm]
  exact key _ hp

/-- What happens by itself. -/
def byItself : Console.Ev → Bool
  | .read => true
  | .parse _ => true
  | .leave => true
  | .prog e => own e
  | _ => false

/-- What happens without more from standard input or the network: that, and the passing of time. -/
def alone (e : Console.Ev) : Prop := byItself e = true ∨ ∃ t, e = .prog (.tick t)

theorem exits {W : Message Dkg.Dto → Prop} (hc : Program.RunsSafe c W) {es : List Console.Ev} {s : Console.Sys K}
    (hr : Console.run parse dflt c (Console.init c) es = .ok s) (hl : s.left = false) (hx : exhausted s = true) (hg : c.guests.Nodup)
    (hd : ((wanted parse dflt s.text).map jobId).Nodup) (hm : ∀ m, .prog (.net m) ∈ es → W m) :
    ∃ es' s', (∀ e ∈ es', alone e) ∧ Console.run parse dflt c s es' = .ok s' ∧ s'.left = true ∧ s'.text = s.text := by
  have hi := (Verif.Console.Inv.init parse dflt c).run hr
  obtain ⟨s1, r1, r2, r3, r4, r5⟩ := read_all (parse := parse) (dflt := dflt) (c := c) hl hi.pre rfl
  obtain ⟨ps, s2, p1, p2, p3, p4, p5, p6, p7⟩ := parse_all (parse := parse) (dflt := dflt) (c := c) r5 (Nat.le_refl _)
    (fun i hi g hg => absurd (List.getElem?_eq_some_iff.1 hg).1 (by omega))
  have hr2 : Console.run parse dflt c (Console.init c) (es ++ (List.replicate ((delivered s).length - s.gos.length) .read ++ ps)) = .ok s2 := by
    rw [run_append, hr, Outcome.bind_ok, run_append, r1, Outcome.bind_ok, p2]
  have hi2 := (Verif.Console.Inv.init parse dflt c).run hr2
  have ht2 : s2.text = s.text := p5.trans r3
  have hgo : s2.gos.map Go.req = readRequests s2.text := by rw [p3, r2, delivered_all s hx, ht2]
  obtain ⟨h3, h4⟩ := requests_inside hr2
  have hd2 : ((requests (trace parse dflt c (Console.init c) (es ++ (List.replicate ((delivered s).length - s.gos.length) .read ++ ps)))).map jobId).Nodup := by
    rw [h4, (hi2.jobs.map jobId).nodup_iff]
    refine List.Sublist.nodup (((looked_sublist s2).filterMap _).map jobId) ?_
    rw [hgo, ht2]; exact hd
  have hm2 : ∀ m, .net m ∈ trace parse dflt c (Console.init c) (es ++ (List.replicate ((delivered s).length - s.gos.length) .read ++ ps)) → W m := by
    intro m hm'
    have := trace_net hm'
    rcases List.mem_append.1 this with h | h
    · exact hm m h
    · rcases List.mem_append.1 h with h | h
      · cases List.eq_of_mem_replicate h
      · obtain ⟨i, h⟩ := p1 _ h; cases h
  obtain ⟨h', p, o1, o2, o3⟩ := reaches c W hc _ _ h3 hg hd2 hm2
  obtain ⟨o, o4⟩ := lift (parse := parse) (dflt := dflt) p7 (fun e he => by
    rcases o1 e he with h | ⟨t, rfl⟩
    · cases e <;> first | rfl | cases h
    · rfl) o2
  have hr3 := (congrArg (· >>= fun s => Console.run parse dflt c s (h'.map .prog)) hr2)
  rw [Outcome.bind_ok, o4, ← run_append] at hr3
  have hi3 := (Verif.Console.Inv.init parse dflt c).run hr3
  have hreq : requests (trace parse dflt c (Console.init c) (es ++ (List.replicate ((delivered s).length - s.gos.length) .read ++ ps)) ++ h') =
      requests (trace parse dflt c (Console.init c) (es ++ (List.replicate ((delivered s).length - s.gos.length) .read ++ ps))) := by
    have : ∀ l : List Program.Ev, requests (l ++ h') = requests l := by
      intro l
      induction l with
      | nil => exact (requests_own o1).1
      | cons e l ih => cases e <;> simp only [List.cons_append, requests, ih]
    exact this _
  have hrp : Program.run c (Program.init c)
      (trace parse dflt c (Console.init c) (es ++ (List.replicate ((delivered s).length - s.gos.length) .read ++ ps)) ++ h') = .ok p := by
    rw [Program.run_append, h3, Outcome.bind_ok, o2]
  have hend := (C82_settled c _ p hrp hg (by rw [hreq]; exact hd2) o3).2.1
  have hx2 : exhausted s2 = true := by
    unfold exhausted at hx ⊢
    rw [p6, r4, ht2]; exact hx
  have hleave : Console.step parse dflt c { s2 with prog := p, out := o } .leave = .ok { s2 with prog := p, out := o, left := true } := by
    unfold Console.step
    dsimp only
    rw [p7, if_neg (by simp), if_pos]
    have e1 : exhausted { s2 with prog := p, out := o } = true := hx2
    have e2 : s2.gos.length = (delivered { s2 with prog := p, out := o }).length := by
      rw [delivered_all _ e1]
      show _ = (readRequests s2.text).length
      rw [← hgo, List.length_map]
    have e3 : s2.gos.all (over { s2 with prog := p, out := o }) = true := by
      rw [List.all_eq_true]
      intro g hg
      unfold over
      cases hp : g.pc with
      | fresh => exact absurd hp (p4 g hg)
      | refused => rfl
      | running k =>
        obtain ⟨j, hj, _⟩ := hi3.running g hg k hp
        have hk : k < p.jobs.length := by
          have := (List.getElem?_eq_some_iff.1 hj).1
          rwa [reqs_length] at this
        show decide (p.jobs[k]?.map JobSt.pc = some .ended) = true
        rw [decide_eq_true_eq, List.getElem?_eq_getElem hk]
        show some p.jobs[k].pc = _
        rw [(hend _ (List.getElem_mem hk)).1]
    rw [Bool.and_eq_true, Bool.and_eq_true, decide_eq_true_eq]
    exact ⟨⟨hx2, by rw [← show delivered _ = delivered { s2 with prog := p, out := o } from rfl] at e2; exact e2⟩, by
      rw [List.all_eq_true] at e3 ⊢; exact e3⟩
  refine ⟨List.replicate ((delivered s).length - s.gos.length) .read ++ ps ++ h'.map .prog ++ [.leave], { s2 with prog := p, out := o, left := true }, ?_, ?_, rfl, ht2⟩
  · intro e he
    rw [List.mem_append, List.mem_append, List.mem_append] at he
    rcases he with ((he | he) | he) | he
    · rw [List.eq_of_mem_replicate he]; exact .inl rfl
    · obtain ⟨i, rfl⟩ := p1 e he; exact .inl rfl
    · obtain ⟨x, hx, rfl⟩ := List.mem_map.1 he
      rcases o1 x hx with h | ⟨t, rfl⟩
      · exact .inl h
      · exact .inr ⟨t, rfl⟩
    · rw [List.mem_singleton.1 he]; exact .inl rfl
  · rw [run_append, run_append, run_append, r1, Outcome.bind_ok, p2, Outcome.bind_ok, o4, Outcome.bind_ok, Console.run, hleave]; rfl

/-- C122 (it gets there). When standard input has ended, or has had a word that is too long, the tool can go on to its end with nothing more from outside, if the
requests have different run identifiers. -/
theorem C122_exits (hc : Program.Sane c) (es : List Console.Ev) (s : Console.Sys K) (hr : Console.run parse dflt c (Console.init c) es = .ok s) (hl : s.left = false)
    (hx : exhausted s = true) (hg : c.guests.Nodup) (hd : ((wanted parse dflt s.text).map jobId).Nodup)
    (hm : ∀ m, .prog (.net m) ∈ es → Dkg.Complete m.dto) :
    ∃ es' s', (∀ e ∈ es', alone e) ∧ Console.run parse dflt c s es' = .ok s' ∧ s'.left = true ∧ s'.text = s.text :=
  exits (Program.sane_runs hc fun _ h => h) hr hl hx hg hd hm

theorem ids_inside {es : List Console.Ev} {s : Console.Sys K} (hr : Console.run parse dflt c (Console.init c) es = .ok s)
    (hd : ((wanted parse dflt s.text).map jobId).Nodup) : ((requests (trace parse dflt c (Console.init c) es)).map jobId).Nodup := by
  have hi := (Verif.Console.Inv.init parse dflt c).run hr
  rw [(requests_inside hr).2, (hi.jobs.map jobId).nodup_iff]
  exact List.Sublist.nodup ((((looked_sublist s).trans (hi.pre.sublist.trans (delivered_prefix s).sublist)).filterMap _).map jobId) hd

/-- What a new request may do. -/
def newCost (c : Program.Cfg K) : Nat := Program.jobCost c.guests ⟨⟨"", 0, 0⟩, .registering, [], [], []⟩

/-- A bound on what the console may still do by itself. -/
def consoleCost (c : Program.Cfg K) (s : Console.Sys K) : Nat :=
  (if s.left then 0 else 1) + ((delivered s).length - s.gos.length) * (2 + newCost c) +
    (s.gos.filter fun g => decide (g.pc = .fresh)).length * (1 + newCost c) + Program.cost c s.prog

theorem cost_alone {es : List Console.Ev} {s s' : Console.Sys K} {e : Console.Ev} (hr : Console.run parse dflt c (Console.init c) es = .ok s)
    (hg : c.guests.Nodup) (hd : ((wanted parse dflt s.text).map jobId).Nodup) (he : alone e) (hs : Console.step parse dflt c s e = .ok s') :
    s'.text = s.text ∧ consoleCost c s' + (if byItself e then 1 else 0) ≤ consoleCost c s := by
  have hr' : Console.run parse dflt c (Console.init c) (es ++ [e]) = .ok s' := by
    rw [run_append, hr, Outcome.bind_ok, Console.run, hs]; rfl
  have known : ∀ {es : List Console.Ev} {x : Console.Sys K}, Console.run parse dflt c (Console.init c) es = .ok x → x.text = s.text →
      Program.Known c (fun _ => True) x.prog := fun {es x} hr hx =>
    known_of (requests_inside hr).1 hg (ids_inside hr (by rw [hx]; exact hd)) fun _ _ => trivial
  have hk := known hr rfl
  have hs0 := hs
  unfold Console.step at hs
  split at hs
  · cases hs
  · next hl =>
    cases e with
    | input cs => rcases he with he | ⟨t, he⟩ <;> cases he
    | close => rcases he with he | ⟨t, he⟩ <;> cases he
    | read =>
      dsimp only at hs
      split at hs
      · cases hs
      · next r hx =>
        cases hs
        have hlt := (List.getElem?_eq_some_iff.1 hx).1
        refine ⟨rfl, ?_⟩
        unfold consoleCost
        show (if s.left then 0 else 1) + ((delivered s).length - (s.gos ++ [_]).length) * _ + ((s.gos ++ [_]).filter _).length * _ + _ + 1 ≤ _
        generalize newCost c = j
        rw [List.filter_append, List.length_append, List.length_append]
        show _ + ((delivered s).length - (s.gos.length + 1)) * (2 + j) + ((s.gos.filter _).length + 1) * (1 + j) + _ + 1 ≤ _
        obtain ⟨n, hn⟩ : ∃ n, (delivered s).length - s.gos.length = n + 1 := ⟨(delivered s).length - s.gos.length - 1, by omega⟩
        rw [show (delivered s).length - (s.gos.length + 1) = n by omega, hn, Nat.add_mul n 1, Nat.add_mul _ 1]
        dsimp only
        omega
    | parse i =>
      dsimp only at hs
      split at hs
      · next r hgo =>
        have count : ∀ pc, pc ≠ .fresh → (s.gos.filter fun g => decide (g.pc = .fresh)).length =
            ((s.gos.set i ⟨r, pc⟩).filter fun g => decide (g.pc = .fresh)).length + 1 := by
          intro pc hpc
          obtain ⟨a, b, h1, h2⟩ := split_at hgo (Go.mk r pc)
          rw [h2]
          conv_lhs => rw [h1]
          rw [List.filter_append, List.filter_append, List.filter_cons_of_pos (by simp), List.filter_cons_of_neg (by simpa using hpc),
            List.length_append, List.length_append, List.length_cons]
          omega
        split at hs
        · cases hs
          refine ⟨rfl, ?_⟩
          unfold consoleCost
          have e1 := count .refused (by simp)
          dsimp only
          rw [List.length_set, e1]
          show _ + ((delivered s).length - _) * _ + _ + _ + 1 ≤ _
          generalize newCost c = j
          rw [Nat.add_mul _ 1]
          omega
        · next j hj =>
          rw [Program.step] at hs
          cases hs
          refine ⟨rfl, ?_⟩
          unfold consoleCost
          have e1 := count (.running s.prog.jobs.length) (by simp)
          dsimp only
          rw [List.length_set, e1]
          show _ + ((delivered s).length - _) * _ + _ + _ + 1 ≤ _
          have e2 : Program.cost c { s.prog with jobs := s.prog.jobs ++ [⟨j, .registering, [], [], []⟩] } =
              Program.cost c s.prog + newCost c := by
            unfold Program.cost
            dsimp only
            rw [Registry.total_append]
            have e3 : Registry.total (Program.jobCost c.guests) [⟨j, .registering, [], [], []⟩] = newCost c := by
              simp [Registry.total, newCost, Program.jobCost]
            rw [e3, ← Nat.add_assoc]
          rw [e2]
          generalize newCost c = j
          rw [Nat.add_mul _ 1]
          omega
      · cases hs
    | leave =>
      dsimp only at hs
      split at hs
      · cases hs
        refine ⟨rfl, ?_⟩
        unfold consoleCost
        dsimp only
        rw [if_neg hl]
        show 0 + ((delivered s).length - _) * _ + _ + _ + 1 ≤ _
        generalize newCost c = j
        omega
      · cases hs
    | prog e =>
      dsimp only at hs
      split at hs
      · cases hs
      · rw [Outcome.bind_eq_ok] at hs
        obtain ⟨p, hp, hs⟩ := hs
        cases hs
        have hk' := known hr' rfl
        refine ⟨rfl, ?_⟩
        unfold consoleCost
        show _ + ((delivered s).length - _) * _ + _ + Program.cost c p + (if own e then 1 else 0) ≤ _
        rcases he with he | ⟨t, he⟩
        · have ho : own e = true := he
          have := Program.cost_own hg hk hk' ho hp
          rw [if_pos ho]
          dsimp only at this ⊢
          omega
        · cases he
          have := Program.cost_tick hg hk.p.u.len hp
          have hn : ¬ (own (Program.Ev.tick t) = true) := fun h => by cases h
          rw [if_neg hn]
          dsimp only
          omega

/-- C122 (only finitely much is left to do). If the requests in what came from standard input have different run identifiers, there is a bound on what can still
happen by itself, whatever the order, as long as nothing comes in from outside. -/
theorem C122_bounded (es : List Console.Ev) (s : Console.Sys K) (hr : Console.run parse dflt c (Console.init c) es = .ok s) (hg : c.guests.Nodup)
    (hd : ((wanted parse dflt s.text).map jobId).Nodup) :
    ∃ n, ∀ es' s', (∀ e ∈ es', alone e) → Console.run parse dflt c s es' = .ok s' → (es'.filter byItself).length ≤ n := by
  refine ⟨consoleCost c s, fun es' s' ho hr' => ?_⟩
  have key : ∀ (es' es : List Console.Ev) (s : Console.Sys K), Console.run parse dflt c (Console.init c) es = .ok s →
      ((wanted parse dflt s.text).map jobId).Nodup → (∀ e ∈ es', alone e) → Console.run parse dflt c s es' = .ok s' →
      (es'.filter byItself).length ≤ consoleCost c s := by
    intro es'
    induction es' with
    | nil => intro _ _ _ _ _ _; exact Nat.zero_le _
    | cons e es' ih =>
      intro es s hr hd ho hr'
      rw [Console.run, Outcome.bind_eq_ok] at hr'
      obtain ⟨s1, h1, h2⟩ := hr'
      obtain ⟨h3, h4⟩ := cost_alone hr hg hd (ho e List.mem_cons_self) h1
      have h5 := ih (es ++ [e]) s1 (by rw [run_append, hr, Outcome.bind_ok, Console.run, h1]; rfl) (by rw [h3]; exact hd)
        (fun e he => ho e (List.mem_cons_of_mem _ he)) h2
      rw [List.filter_cons]
      split
      · next hb => rw [if_pos hb] at h4; rw [List.length_cons]; omega
      · omega
  exact key es' es s hr hd ho hr'

/-- C122 (nothing gets stuck). If standard input has ended and nothing more can happen by itself, however late it gets, then the tool has left: with `C122_bounded`, it
leaves in every history in which what can happen does happen. -/
theorem C122_settled (es : List Console.Ev) (s : Console.Sys K) (hr : Console.run parse dflt c (Console.init c) es = .ok s) (hx : exhausted s = true)
    (hg : c.guests.Nodup) (hd : ((wanted parse dflt s.text).map jobId).Nodup)
    (hs : ∀ t s1, Console.step parse dflt c s (.prog (.tick t)) = .ok s1 → ∀ e, byItself e = true → Console.step parse dflt c s1 e = .err) :
    s.left = true := by
  cases hl : s.left with
  | true => rfl
  | false =>
    exfalso
    have hi := (Verif.Console.Inv.init parse dflt c).run hr
    obtain ⟨h3, h4⟩ := requests_inside hr
    have hd' := ids_inside hr hd
    have prog : ∀ (x : Console.Sys K) e, x.left = false → isRequest e = false → Console.step parse dflt c x (.prog e) =
        (Program.step c x.prog e >>= fun p => .ok { x with prog := p, out := x.out ++ Print.printedBy c x.prog e }) := by
      intro x e hl he
      unfold Console.step
      rw [hl, if_neg (by simp)]
      dsimp only
      rw [he, if_neg (by simp)]
    have hset : Settled c s.prog := by
      intro t p1 hp e he
      have h1 := hs t { s with prog := p1, out := s.out ++ Print.printedBy c s.prog (.tick t) } (by rw [prog s _ hl rfl, hp]; rfl) (.prog e) he
      rw [prog { s with prog := p1, out := s.out ++ Print.printedBy c s.prog (.tick t) } e hl (by cases e <;> first | rfl | cases he)] at h1
      cases hq : Program.step c p1 e with
      | err => rfl
      | ok p => dsimp only at h1; rw [hq] at h1; cases h1
      | panic => dsimp only at h1; rw [hq] at h1; cases h1
    have hend := (C82_settled c _ s.prog h3 hg hd' hset).2.1
    have hk := known_of (W := fun _ => True) h3 hg hd' fun _ _ => trivial
    obtain ⟨t, _, p1, hp, _, e1⟩ := Program.late_tick (c := c) hk.p.u.len
    have hstep := hs t { s with prog := p1, out := s.out ++ Print.printedBy c s.prog (.tick t) } (by rw [prog s _ hl rfl, hp]; rfl)
    have hjobs : p1.jobs = s.prog.jobs := by rw [e1]
    have hread : s.gos.map Go.req = delivered s := by
      refine hi.pre.eq_of_length (Nat.le_antisymm hi.pre.length_le ?_)
      rw [List.length_map]
      by_contra hlt
      have h := hstep .read rfl
      unfold Console.step at h
      dsimp only at h
      rw [hl, if_neg (by simp)] at h
      have e2 : (delivered s)[s.gos.length]? = some ((delivered s)[s.gos.length]'(by omega)) := List.getElem?_eq_getElem (by omega)
      change (match (delivered s)[s.gos.length]? with | none => _ | some r => _) = _ at h
      rw [e2] at h
      cases h
    have hfresh : ∀ g ∈ s.gos, g.pc ≠ .fresh := by
      intro g hgm hf
      obtain ⟨i, hgi⟩ := List.getElem?_of_mem hgm
      obtain ⟨s', _, h1, _⟩ := parse_one (parse := parse) (dflt := dflt) (c := c)
        (s := { s with prog := p1, out := s.out ++ Print.printedBy c s.prog (.tick t) }) hl hgi hf
      have h := hstep (.parse i) rfl
      rw [h1] at h
      cases h
    have h := hstep .leave rfl
    unfold Console.step at h
    dsimp only at h
    rw [hl, if_neg (by simp), if_pos] at h
    · cases h
    · rw [Bool.and_eq_true, Bool.and_eq_true, decide_eq_true_eq]
      refine ⟨⟨hx, ?_⟩, ?_⟩
      · show s.gos.length = (delivered s).length
        rw [← hread, List.length_map]
      · rw [List.all_eq_true]
        intro g hgm
        unfold over
        cases hpc : g.pc with
        | fresh => exact absurd hpc (hfresh g hgm)
        | refused => rfl
        | running k =>
          obtain ⟨j, hj, _⟩ := hi.running g hgm k hpc
          have hkk : k < s.prog.jobs.length := by
            have := (List.getElem?_eq_some_iff.1 hj).1
            rwa [reqs_length] at this
          show decide (p1.jobs[k]?.map JobSt.pc = some .ended) = true
          rw [hjobs, decide_eq_true_eq, List.getElem?_eq_getElem hkk]
          show some s.prog.jobs[k].pc = _
          rw [(hend _ (List.getElem_mem hkk)).1]

open Verif.Rabin Verif.Spec.Rabin Verif.Props.RabinProgram in
/-- C122 (kyber). With kyber's generators as in `Model/Rabin` (so without justifications, complaints about commitments and reconstructions) and whatever others send, the tool does not panic, it can go on to its end when standard input has ended, and every signature
that it prints for a guest is for a request that was typed and verifies, for its document, under the public key that belongs to the share of this guest. -/
theorem C122_kyber {S : Suite} {R : Int → Nat → Choice} {T : Nat} (c : Program.Cfg Gen) (hc : Members c S R T) (hl : Own c T)
    (hH : ∀ b, (c.H b).length = 32) (hg : c.guests.Nodup) (es : List Console.Ev) (s : Console.Sys Gen)
    (hr : Console.run parse dflt c (Console.init c) es = .ok s) (hd : ((wanted parse dflt s.text).map jobId).Nodup)
    (hm : ∀ m, .prog (.net m) ∈ es → Fine m) :
    (∀ e, (∀ m, e = .prog (.net m) → Fine m) → Console.step parse dflt c s e ≠ .panic) ∧
    (s.left = false → exhausted s = true →
      ∃ es' s', (∀ e ∈ es', alone e) ∧ Console.run parse dflt c s es' = .ok s' ∧ s'.left = true ∧ s'.text = s.text) ∧
    ∀ b ∈ s.prog.jobs, ∀ g sig, (g, some sig) ∈ b.lines → b.job ∈ wanted parse dflt s.text ∧ sigText sig ∈ s.out ∧
      (0 ≤ b.job.doc ∧ b.job.doc < 2 ^ 256 → ∃ long, c.longterms.get? g = some long ∧
        Schnorr.verify c.H (.pt (long.commits.headD null)) b.job.doc sig = .ok ()) := by
  obtain ⟨h1, h2⟩ := requests_inside hr
  have hd' := ids_inside hr hd
  have hm' : ∀ m, .net m ∈ trace parse dflt c (Console.init c) es → Fine m := fun m hx => hm m (trace_net hx)
  refine ⟨fun e he hp => ?_, fun hleft hx => exits (own_safe hc hl fun _ h => h) hr hleft hx hg hd hm, fun b hb g sig hx => ⟨?_, ?_, fun hdoc => ?_⟩⟩
  · unfold Console.step at hp
    split at hp
    · cases hp
    · cases e with
      | input cs => dsimp only at hp; split at hp <;> cases hp
      | close => cases hp
      | read => dsimp only at hp; split at hp <;> cases hp
      | parse i =>
        dsimp only at hp
        split at hp
        · split at hp
          · cases hp
          · rw [Program.step] at hp; cases hp
        · cases hp
      | leave => dsimp only at hp; split at hp <;> cases hp
      | prog e =>
        dsimp only at hp
        split at hp
        · cases hp
        · next hn =>
          have hs : Program.step c s.prog e = .panic := by
            cases hq : Program.step c s.prog e with
            | panic => rfl
            | ok p => rw [hq] at hp; cases hp
            | err => rw [hq] at hp; cases hp
          have hreq : requests (trace parse dflt c (Console.init c) es ++ [e]) = requests (trace parse dflt c (Console.init c) es) := by
            have : ∀ l : List Program.Ev, requests (l ++ [e]) = requests l := by
              intro l
              induction l with
              | nil => cases e <;> first | rfl | exact absurd rfl hn
              | cons x l ih => cases x <;> simp only [List.cons_append, requests, ih]
            exact this _
          refine C119_calm c hc hl hg (trace parse dflt c (Console.init c) es ++ [e]) (by rw [hreq]; exact hd') (fun m hx => ?_) ?_
          · rcases List.mem_append.1 hx with hx | hx
            · exact hm' m hx
            · exact he m (by rw [List.mem_singleton.1 hx])
          · rw [Program.run_append, h1, Outcome.bind_ok, Program.run, hs]; rfl
  · obtain ⟨l, k1, k2⟩ := C122_reads es s hr
    exact (k1.filterMap _).subset (k2.subset (List.mem_map_of_mem hb))
  · obtain ⟨_, _, _, _, _, h5⟩ := C93_output _ _ _ _ (inside hr)
    refine h5.mem_iff.2 (List.mem_flatMap.2 ⟨b, hb, ?_⟩)
    rw [jobText]
    exact List.mem_append_right _ (List.mem_map.2 ⟨_, hx, rfl⟩)
  · exact C119_prints c hc hl hH hg _ _ h1 hd' hm' b hb hdoc g sig hx

section
open Verif.Rabin Verif.Spec.Rabin Verif.Spec.Generation Verif.Spec.Signode Verif.Start Verif.Props.Start Verif.Props.KeyStart Verif.Props.RabinTogether
open Verif.Layout Verif.Dto Verif.Tables
variable {ι : Type} {S : Suite} {R : Choice}

/-- C122 (from the first start to what is printed). As C120, with the tools between standard input and standard output: when the processes in `A` are started again with
their files, with a network that works between them, with nothing late and with kyber's generators, and one request has been typed at each of them in time,
there is one signature that all of them have on standard output 650 ms after its start, once for each guest, below a line that names the run, and it verifies for the
document that was typed under the public key of the sum of the secrets that all members had chosen. -/
theorem C122_signed [DecidableEq ι] {t : Cast ι Gen} {i n : Nat} {d : Int} (ht : Together t i n d) {ks : List Pt} (hwi : Wired t.a t.entries t.st ks)
    {h0 : List (Network.Ev ι Verif.KeyProgram.Ev)} (ho : t.Online (idOf d i) h0)
    (hk : Kyber t.st t.rest (fun p => (t.s p).prog.node.reg.objs) S R 0 (idOf d i)) (hf : Fair S R (List.range n)) (hT : R.T ≤ n)
    (hz : NoZero R (List.range n)) (hne : ∀ p, (t.st p).guests.keys ≠ [])
    (hq : ∀ p, Spec.KeyProgram.Settled (keyCfg (t.st p) (t.rest p)) (t.s p)) :
    ∃ f : ι → GoMap Int DksDTO, (∀ p, (t.s p).file = some (f p)) ∧
      ∀ (A : Finset ι) (w : A → World Gen) (time : A → String) (_ : ∀ p : A, Again (t.w p) (w p) (time p)),
        ∃ st : A → Started, (∀ p : A, start (w p) (signCmd (t.a p) (f p) (time p)) = .ok (st p) ∧ (st p).guests = (t.st p).guests) ∧
          ∀ (rest : A → Rest Gen) (es : A → List Console.Ev) (s : A → Console.Sys Gen) (h : A → List Program.Ev) (j : Job) (P : List Nat) (S' : Suite)
            (R' : Choice) (H : List UInt8 → List UInt8) (SH : Dss.Share → List UInt8) (_ : ∀ b, (H b).length = 32)
            (_ : ∀ p, (rest p).H = H ∧ (rest p).SH = SH)
            (_ : ∀ p, Console.run (w p).parse (st p).startAt (programCfg (st p) (rest p)) (Console.init (programCfg (st p) (rest p))) (es p) = .ok (s p))
            (_ : ∀ p, h p = trace (w p).parse (st p).startAt (programCfg (st p) (rest p)) (Console.init (programCfg (st p) (rest p))) (es p))
            (_ : ∀ p, InTime (programCfg (st p) (rest p)) (h p) (s p).prog j) (_ : 0 ≤ j.doc ∧ j.doc < 2 ^ 256)
            (_ : P.Nodup) (_ : ∀ x, x ∈ P ↔ ∃ p ∈ A, x ∈ (t.st p).guests.keys) (_ : R.T ≤ P.length) (_ : R'.T = R.T)
            (_ : Kyber st rest (fun p => (s p).prog.node.reg.objs) S' R' 1 (jobId j)) (_ : Fair S' R' P)
            (h1 : List (Network.Ev A Program.Ev)) (_ : (t.again (Subtype.val : A → ι) f w time st rest h fun p => (s p).prog).Online j h1),
            ∃ sig, Schnorr.verify H (.pt (timesAdd base ((List.range n).map fun a => (R.f a).headD 0).sum)) j.doc sig = .ok () ∧
              ∀ p : A, j ∈ wanted (w p).parse (st p).startAt (s p).text ∧
                ∃ more, (s p).out.Perm (doneText (jobId j) :: ((t.st p).guests.keys.map fun _ => sigText sig) ++ more) := by
  obtain ⟨f, hf1, hf2⟩ := C120_any_quorum ht hwi ho hk hf hT hz hne hq
  refine ⟨f, hf1, fun A w time hag => ?_⟩
  obtain ⟨st, h1, h2⟩ := hf2 A w time hag
  refine ⟨st, h1, fun rest es s h j P S' R' H SH h32 hH hrun htr hin hdoc hPn hP hPT hTT hk' hf' h3 hon => ?_⟩
  obtain ⟨sig, g1, g2⟩ := h2 rest h (fun p => (s p).prog) j P S' R' H SH h32 hH hin hdoc hPn hP hPT hTT hk' hf' h3 hon
  refine ⟨sig, g1, fun p => ?_⟩
  obtain ⟨b, hb, hj, hpc, hlines⟩ := g2 p
  constructor
  · obtain ⟨l, k1, k2⟩ := C122_reads (es p) (s p) (hrun p)
    rw [← hj]
    exact (k1.filterMap _).subset (k2.subset (List.mem_map_of_mem hb))
  · obtain ⟨_, _, _, _, _, h5⟩ := C93_output _ _ _ _ (inside (hrun p))
    obtain ⟨a, r, hab⟩ := List.append_of_mem hb
    rw [hab, List.flatMap_append, List.flatMap_cons] at h5
    refine ⟨a.flatMap jobText ++ r.flatMap jobText, h5.trans ?_⟩
    have e1 : (jobText b).Perm (doneText (jobId j) :: ((t.st p).guests.keys.map fun _ => sigText sig)) := by
      rw [jobText, if_pos (.inr hpc), hj]
      refine List.Perm.cons _ ?_
      have := hlines.map (lineText (jobId j))
      rw [List.map_map] at this
      exact this
    rw [← List.append_assoc]
    refine (List.perm_append_comm.append_right _).trans ?_
    rw [List.append_assoc]
    exact e1.append_right _
end

end Verif.Props.Console
