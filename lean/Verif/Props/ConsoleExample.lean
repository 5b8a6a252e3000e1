import Verif.Props.Console
import Verif.Props.PrintExample
import Verif.Props.ProgramLiveExample
import Verif.Props.RabinProgramExample
import Verif.Model.TimeParse

/-! C122 on concrete histories. -/
namespace Verif.Props.Console
open Verif.Prot Verif.Point Verif.Signode Verif.Scan Verif.Console Verif.Props.Program Verif.Props.Print Verif.Spec.Program Verif.Spec.Console
open Verif.Print (doneText lineText sigText)

/-- The time of the requests, in nanoseconds. -/
def coStart : Int := 1662004242000000000

/-- The first request and one with a time that cannot be read are typed; the second request comes without a line break and is read when input ends. Then it goes on as
in `prHistory`, and the tool leaves. -/
def coHistory : List Console.Ev :=
  [.input "0 2022-09-01T03:50:42Z 9\n7 noon 8\n1 _".toList, .read, .parse 0, .input " A".toList, .read, .close, .read, .parse 2, .parse 1] ++
  (prHistory.drop 2).map .prog ++ [.leave]

def coCheck : Bool :=
  match Console.run TimeParse.parse coStart pgCfg (Console.init pgCfg) coHistory with
  | .ok s => s.left && decide (wanted TimeParse.parse coStart s.text = [pgJob1, pgJob2]) && decide (s.out.length = 4) &&
      decide (s.out.head? = some (doneText (jobId pgJob1))) && decide (s.gos.map Go.pc = [.running 0, .refused, .running 1])
  | _ => false

theorem coCheck_ok : coCheck = true := by decide +kernel

theorem co_ok : ∃ s, Console.run TimeParse.parse coStart pgCfg (Console.init pgCfg) coHistory = .ok s ∧ s.left = true ∧
    wanted TimeParse.parse coStart s.text = [pgJob1, pgJob2] ∧ s.out.length = 4 := by
  have h := coCheck_ok
  unfold coCheck at h
  match hr : Console.run TimeParse.parse coStart pgCfg (Console.init pgCfg) coHistory with
  | .err => rw [hr] at h; cases h
  | .panic => rw [hr] at h; cases h
  | .ok s =>
    rw [hr] at h
    dsimp only at h
    simp only [Bool.and_eq_true, decide_eq_true_eq] at h
    exact ⟨s, rfl, h.1.1.1.1, h.1.1.1.2, h.1.1.2⟩

/-- What `C122_left` says of it: a line for each of the two requests that the runs have ended, and one for their guest. -/
example : ∃ s, Console.run TimeParse.parse coStart pgCfg (Console.init pgCfg) coHistory = .ok s ∧
    (s.prog.jobs.map Program.JobSt.job).Perm [pgJob1, pgJob2] ∧ (∀ b ∈ s.prog.jobs, b.pc = .ended ∧ (b.lines.map Prod.fst).Perm [0]) ∧
    s.out.Perm (s.prog.jobs.flatMap fun b => doneText (jobId b.job) :: b.lines.map (lineText (jobId b.job))) := by
  obtain ⟨s, h1, h2, h3, _⟩ := co_ok
  obtain ⟨g1, g2, g3, g4⟩ := C122_left _ _ h1 h2
  rw [h3] at g1 g4
  exact ⟨s, h1, g1, fun b hb => ⟨g2 b hb, (g4 (by decide) (by decide +kernel)).1 b hb⟩, g3⟩

/-- Before that: the first request has been typed, and the first word of the next. -/
def coEarly : List Console.Ev := [.input "0 _ 9\n1".toList, .read, .parse 0, .prog (.job 0 0), .close]

def coEarlyCheck : Bool :=
  match Console.run TimeParse.parse coStart pgCfg (Console.init pgCfg) coEarly with
  | .ok s => !s.left && exhausted s && decide (wanted TimeParse.parse coStart s.text = [pgJob1])
  | _ => false

theorem coEarlyCheck_ok : coEarlyCheck = true := by decide +kernel

/-- From there `C122_exits` leads to the end. -/
example : ∃ s es' s', Console.run TimeParse.parse coStart pgCfg (Console.init pgCfg) coEarly = .ok s ∧ s.left = false ∧ (∀ e ∈ es', alone e) ∧
    Console.run TimeParse.parse coStart pgCfg s es' = .ok s' ∧ s'.left = true := by
  have h := coEarlyCheck_ok
  unfold coEarlyCheck at h
  match hr : Console.run TimeParse.parse coStart pgCfg (Console.init pgCfg) coEarly with
  | .err => rw [hr] at h; cases h
  | .panic => rw [hr] at h; cases h
  | .ok s =>
    rw [hr] at h
    dsimp only at h
    simp only [Bool.and_eq_true, decide_eq_true_eq, Bool.not_eq_true'] at h
    obtain ⟨es', s', g1, g2, g3, _⟩ := C122_exits pg_sane _ s hr h.1.1 h.1.2 pg_ids.1 (by rw [h.2]; decide) (fun m hm => by simp [coEarly] at hm)
    exact ⟨s, es', s', rfl, h.1.1, g1, g2, g3⟩

theorem alone_same {K : Type} {parse : String → Option Int} {dflt : Int} {c : Program.Cfg K} {es : List Console.Ev} : ∀ {s s' : Console.Sys K},
    (∀ e ∈ es, alone e) → Console.run parse dflt c s es = .ok s' → s'.text = s.text ∧ s'.eof = s.eof := by
  induction es with
  | nil => intro s s' _ hr; cases hr; exact ⟨rfl, rfl⟩
  | cons e es ih =>
    intro s s' ho hr
    rw [Console.run, Outcome.bind_eq_ok] at hr
    obtain ⟨s1, h1, h2⟩ := hr
    obtain ⟨h3, h4⟩ := ih (fun e he => ho e (List.mem_cons_of_mem _ he)) h2
    have key : s1.text = s.text ∧ s1.eof = s.eof := by
      have he := ho e List.mem_cons_self
      unfold Console.step at h1
      split at h1
      · cases h1
      · cases e with
        | input cs => rcases he with he | ⟨t, he⟩ <;> cases he
        | close => rcases he with he | ⟨t, he⟩ <;> cases he
        | read => dsimp only at h1; split at h1 <;> cases h1; exact ⟨rfl, rfl⟩
        | leave => dsimp only at h1; split at h1 <;> cases h1; exact ⟨rfl, rfl⟩
        | prog e =>
          dsimp only at h1
          split at h1
          · cases h1
          · rw [Outcome.bind_eq_ok] at h1
            obtain ⟨p, _, h1⟩ := h1
            cases h1; exact ⟨rfl, rfl⟩
        | parse i =>
          dsimp only at h1
          split at h1
          · split at h1
            · cases h1; exact ⟨rfl, rfl⟩
            · rw [Outcome.bind_eq_ok] at h1
              obtain ⟨p, _, h1⟩ := h1
              cases h1; exact ⟨rfl, rfl⟩
          · cases h1
    exact ⟨h3.trans key.1, h4.trans key.2⟩

/-- And whatever the order, only finitely much happens, and when nothing more can happen the tool has left (`C122_bounded`, `C122_settled`). -/
example : ∃ s n, Console.run TimeParse.parse coStart pgCfg (Console.init pgCfg) coEarly = .ok s ∧ ∀ es' s', (∀ e ∈ es', alone e) →
    Console.run TimeParse.parse coStart pgCfg s es' = .ok s' → (es'.filter byItself).length ≤ n ∧
      ((∀ t s1, Console.step TimeParse.parse coStart pgCfg s' (.prog (.tick t)) = .ok s1 → ∀ e, byItself e = true →
        Console.step TimeParse.parse coStart pgCfg s1 e = .err) → s'.left = true) := by
  have h := coEarlyCheck_ok
  unfold coEarlyCheck at h
  match hr : Console.run TimeParse.parse coStart pgCfg (Console.init pgCfg) coEarly with
  | .err => rw [hr] at h; cases h
  | .panic => rw [hr] at h; cases h
  | .ok s =>
    rw [hr] at h
    dsimp only at h
    simp only [Bool.and_eq_true, decide_eq_true_eq, Bool.not_eq_true'] at h
    have hd : ((wanted TimeParse.parse coStart s.text).map jobId).Nodup := by rw [h.2]; decide
    obtain ⟨n, hn⟩ := C122_bounded coEarly s hr pg_ids.1 hd
    refine ⟨s, n, rfl, fun es' s' ho hr' => ⟨hn es' s' ho hr', fun hq => ?_⟩⟩
    obtain ⟨e1, e2⟩ := alone_same ho hr'
    refine C122_settled (coEarly ++ es') s' (by rw [run_append, hr]; exact hr') ?_ pg_ids.1 (by rw [e1]; exact hd) hq
    have hx := h.1.2
    unfold exhausted at hx ⊢
    rw [e1, e2]; exact hx

/-- The same request is typed twice. -/
def coTwice : List Console.Ev :=
  [.input "0 _ 9 0 _ 9\n".toList, .close, .read, .read, .parse 0, .parse 1] ++ (pgTwice.drop 2).map .prog

def coTwiceCheck : Bool :=
  match Console.run TimeParse.parse coStart pgCfg (Console.init pgCfg) coTwice with
  | .ok s => s.eof && decide (s.gos.map Go.pc = [.running 0, .running 1])
  | _ => false

theorem coTwiceCheck_ok : coTwiceCheck = true := by decide +kernel

theorem coTwice_prog : (Console.run TimeParse.parse coStart pgCfg (Console.init pgCfg) coTwice >>= fun s => .ok s.prog) =
    Program.run pgCfg (Program.init pgCfg) pgTwice := by rfl

theorem print_program {K : Type} {c : Program.Cfg K} {h : List Program.Ev} : ∀ {s s' : Program.Sys K} {o : List (List Char)},
    Verif.Print.run c s h = .ok (s', o) → Program.run c s h = .ok s' := by
  induction h with
  | nil => intro s s' o hr; cases hr; rfl
  | cons e h ih =>
    intro s s' o hr
    rw [Verif.Print.run, Outcome.bind_eq_ok] at hr
    obtain ⟨s1, h1, h2⟩ := hr
    rw [Outcome.bind_eq_ok] at h2
    obtain ⟨⟨s2, o2⟩, h3, h4⟩ := h2
    cases h4
    rw [Program.run, h1]
    exact ih h3

/-- C122 (the end) is false when requests have one run identifier: when the same request was typed twice, the tool may get into a state from which it never leaves, although
standard input has ended and whatever happens. -/
theorem C122_counterexample_twice : ∃ (es : List Console.Ev) (s : Console.Sys Unit), Console.run TimeParse.parse coStart pgCfg (Console.init pgCfg) es = .ok s ∧
    s.eof = true ∧ (∀ m, .prog (.net m) ∉ es) ∧
    ∀ es' s', Console.run TimeParse.parse coStart pgCfg s es' = .ok s' → s'.left = false := by
  have h := coTwiceCheck_ok
  unfold coTwiceCheck at h
  obtain ⟨p, hp, hstuck⟩ := pg_twice
  have hq := coTwice_prog
  match hr : Console.run TimeParse.parse coStart pgCfg (Console.init pgCfg) coTwice with
  | .err => rw [hr] at h; cases h
  | .panic => rw [hr] at h; cases h
  | .ok s =>
    rw [hr] at h
    dsimp only at h
    rw [Bool.and_eq_true] at h
    rw [hr, hp] at hq
    cases (Outcome.ok.inj hq : s.prog = p)
    refine ⟨coTwice, s, hr, h.1, fun m hm => by simp [coTwice, pgTwice] at hm, fun es' s' hr' => ?_⟩
    cases hl : s'.left with
    | false => rfl
    | true =>
      obtain ⟨o, h1, _⟩ := trace_ok hr'
      obtain ⟨b, hb, hw, _⟩ := hstuck _ _ (print_program h1)
      have hr3 : Console.run TimeParse.parse coStart pgCfg (Console.init pgCfg) (coTwice ++ es') = .ok s' := by
        rw [run_append, hr]; exact hr'
      have := (all_ended hr3 hl).2 b (List.mem_of_getElem? hb)
      rw [hw] at this
      cases this

/-! ### Typing a request -/

theorem trace_prog {K : Type} {parse : String → Option Int} {dflt : Int} {c : Program.Cfg K} {h : List Program.Ev} :
    ∀ {s s' : Console.Sys K}, Console.run parse dflt c s (h.map .prog) = .ok s' → trace parse dflt c s (h.map .prog) = h := by
  induction h with
  | nil => intro s s' _; rfl
  | cons e h ih =>
    intro s s' hr
    rw [List.map_cons, Console.run, Outcome.bind_eq_ok] at hr
    obtain ⟨s1, h1, h2⟩ := hr
    rw [List.map_cons, trace, h1]
    show [e] ++ trace parse dflt c s1 (h.map .prog) = e :: h
    rw [ih h2]; rfl

/-- A history of the program with one request, when the request is typed. -/
theorem typed {K : Type} {parse : String → Option Int} {dflt : Int} {c : Program.Cfg K} {h : List Program.Ev} {p : Program.Sys K} {j : Job} {r : Request}
    {text : List Char} (ht : runSigs (scan (complete text)).1 = [r]) (hj : runSig1 parse dflt r = some j)
    (hr : Program.run c (Program.init c) (.request j :: h) = .ok p) (hq : requests h = []) :
    ∃ s, Console.run parse dflt c (Console.init c) ([.input text, .read, .parse 0] ++ h.map .prog) = .ok s ∧ s.prog = p ∧ s.text = text ∧ s.left = false ∧
      trace parse dflt c (Console.init c) ([.input text, .read, .parse 0] ++ h.map .prog) = .request j :: h := by
  rw [Program.run, Outcome.bind_eq_ok] at hr
  obtain ⟨p1, h1, h2⟩ := hr
  have e1 : Console.step parse dflt c (Console.init c) (.input text) = .ok ⟨Program.init c, text, false, [], [], false⟩ := rfl
  have e2 : Console.step parse dflt c ⟨Program.init c, text, false, [], [], false⟩ .read = .ok ⟨Program.init c, text, false, [⟨r, .fresh⟩], [], false⟩ := by
    unfold Console.step
    dsimp only
    rw [if_neg (by simp)]
    have : delivered (⟨Program.init c, text, false, [], [], false⟩ : Console.Sys K) = [r] := ht
    rw [this]; rfl
  have e3 : Console.step parse dflt c ⟨Program.init c, text, false, [⟨r, .fresh⟩], [], false⟩ (.parse 0) =
      .ok ⟨p1, text, false, [⟨r, .running 0⟩], [], false⟩ := by
    unfold Console.step
    dsimp only
    rw [if_neg (by simp)]
    show (match runSig1 parse dflt r with
      | none => _
      | some j => _) = _
    rw [hj]
    dsimp only
    rw [h1]; rfl
  have hn : ∀ e ∈ h, isRequest e = false := by
    clear h2
    induction h with
    | nil => intro e he; cases he
    | cons x h ih =>
      intro e he
      cases x with
      | request j => rw [requests] at hq; cases hq
      | _ =>
        rw [requests] at hq
        rcases List.mem_cons.1 he with rfl | he
        · rfl
        · exact ih hq e he
        all_goals simp
  obtain ⟨o, ho⟩ := lift (parse := parse) (dflt := dflt) (c := c) (s := ⟨p1, text, false, [⟨r, .running 0⟩], [], false⟩) rfl hn h2
  refine ⟨⟨p, text, false, [⟨r, .running 0⟩], o, false⟩, ?_, rfl, rfl, rfl, ?_⟩
  · show Console.run parse dflt c (Console.init c) (.input text :: .read :: .parse 0 :: h.map .prog) = _
    rw [Console.run, e1, Outcome.bind_ok, Console.run, e2, Outcome.bind_ok, Console.run, e3, Outcome.bind_ok]
    exact ho
  · show trace parse dflt c (Console.init c) (.input text :: .read :: .parse 0 :: h.map .prog) = _
    rw [trace, e1]
    dsimp only
    rw [trace, e2]
    dsimp only
    rw [trace, e3]
    dsimp only
    rw [trace_prog ho]
    show ((runSig1 parse dflt r).map Program.Ev.request).toList ++ h = _
    rw [hj]; rfl

/-! ### With kyber's generators -/

section
open Verif.Rabin Verif.Props.RabinProgram
open Verif.Props.RabinProgram (sign_run sign_net sign_requests members)

attribute [local irreducible] rpSignHist signMsgs

theorem rp_read : rpSignHist.head? = some (.request pgJob1) := by
  unfold rpSignHist; rfl

/-- `C122_kyber` on the process of member 0 in `Verif.Props.RabinProgramExample`, when its request is typed. -/
example : ∃ es s sig, Console.run TimeParse.parse coStart rpSign (Console.init rpSign) es = .ok s ∧ s.text = "0 _ 9\n".toList ∧ sigText sig ∈ s.out ∧
    Schnorr.verify toyHash (.pt (((Verif.Spec.Rabin.net (Rabin.exS true) Rabin.exR [2, 0]).key 0).commits.headD null)) 9 sig = .ok () := by
  obtain ⟨h1, p, b, h2, sig, h3, h4, h5⟩ := sign_run
  have hh := rp_read
  have hq := sign_requests
  have hnet : ∀ m, .net m ∈ rpSignHist → Fine m := fun m hm => h1 m (sign_net hm)
  generalize rpSignHist = hist at h3 hh hq hnet
  cases hist with
  | nil => cases hh
  | cons e hist =>
    cases hh
    obtain ⟨s, k1, k2, k3, _, k5⟩ := typed (parse := TimeParse.parse) (dflt := coStart) (r := ⟨"0", "_", "9"⟩) (text := "0 _ 9\n".toList) (by decide +kernel)
      (by decide +kernel) h3 (List.cons.inj (by rw [requests] at hq; exact hq)).2
    cases k2
    have hw : wanted TimeParse.parse coStart s.text = [pgJob1] := by rw [k3]; decide +kernel
    obtain ⟨_, _, k⟩ := C122_kyber rpSign (members _) RabinProgram.own (fun b => by simp [rpSign, rpBase, toyHash]) (by decide) _ s k1
      (by rw [hw]; decide) (fun m hm => by
        refine hnet m ?_
        rcases List.mem_append.1 hm with hm | hm
        · simp at hm
        · obtain ⟨x, hx, hy⟩ := List.mem_map.1 hm
          cases hy
          exact List.mem_cons_of_mem _ hx)
    obtain ⟨_, k6, k7⟩ := k b h2 0 sig h5
    obtain ⟨long, k8, k9⟩ := k7 (by rw [h4]; decide)
    cases k8
    rw [h4] at k9
    exact ⟨_, s, sig, k1, k3, k6, k9⟩
end

end Verif.Props.Console
