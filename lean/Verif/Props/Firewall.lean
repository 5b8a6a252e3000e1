import Verif.Proofs.FirewallHistory

/-! Properties C37–C41 and C68: the firewall. -/
namespace Verif.Props
open Verif.Firewall Verif.Spec.Firewall
variable {D : Type}

/-- C39. In every history, what was output for a run is, for each allowance of that run in turn, the messages received
while it was buffering (the first 2048 of them, once flushed) followed by those received while it was forwarding, in
order of arrival, each once; and nothing else. -/
theorem C39_output (np : Nat) (gs : Int → Bool) (du t0 : Int) (h : List (Ev D)) (f : Fw D)
    (hr : run (make D np gs du t0) h = .ok f) (k : RunKey) :
    f.out.filter (fun m => decide (m.key = k)) = passedAll (!decide (t0 < du)) k h := (agree_run hr).out k

/-- A successful run of a longer history is a successful run of its beginning. -/
theorem run_prefix {f f' : Fw D} {h g : List (Ev D)} (hr : run f (h ++ g) = .ok f') :
    ∃ f1, run f h = .ok f1 ∧ run f1 g = .ok f' := by
  rw [run_append, Outcome.bind_eq_ok] at hr; exact hr

/-- Every output message was received, after initialisation, in the buffering or forwarding phase of an allowance. -/
theorem output_received {np : Nat} {gs : Int → Bool} {du t0 : Int} {h : List (Ev D)} {f : Fw D}
    (hr : run (make D np gs du t0) h = .ok f) {m : Message D} (hm : m ∈ f.out) :
    ∃ h1 h2 i a, h = h1 ++ .msg m :: h2 ∧ (allows h1)[i]? = some (m.key, a) ∧ (steps i h1 = 2 ∨ steps i h1 = 3) ∧
      a.buf ≤ clock t0 h1 ∧ du ≤ clock t0 h1 := by
  have h1 : m ∈ f.out.filter (fun x => decide (x.key = m.key)) := List.mem_filter.2 ⟨hm, by simp⟩
  rw [C39_output np gs du t0 h f hr, passedAll, List.mem_flatMap] at h1
  obtain ⟨i, _, h2⟩ := h1
  by_cases hk : ((allows h)[i]?).map Prod.fst = some m.key
  · rw [if_pos hk, passed, List.mem_append] at h2
    have h3 : ∃ n, (n = 2 ∨ n = 3) ∧ m ∈ receivedIn (!decide (t0 < du)) m.key i n h := by
      rcases h2 with h2 | h2
      · by_cases h3 : 3 ≤ steps i h
        · rw [if_pos h3] at h2; exact ⟨2, .inl rfl, List.mem_of_mem_take h2⟩
        · rw [if_neg h3] at h2; cases h2
      · exact ⟨3, .inr rfl, h2⟩
    obtain ⟨n, hn, hin⟩ := h3
    obtain ⟨p, q, rfl, hP⟩ := mem_receivedWhen hin
    simp only [Bool.and_eq_true, decide_eq_true_eq, true_and] at hP
    obtain ⟨⟨hlat, _⟩, hst⟩ := hP
    obtain ⟨s, hs, _⟩ := run_prefix hr
    have a := agree_run hs
    have hc : ∃ c, s.calls[i]? = some c := by
      cases hc : s.calls[i]? with
      | some c => exact ⟨c, rfl⟩
      | none => have := a.secs i; rw [sec, hc] at this; simp at this; omega
    obtain ⟨c, hc⟩ := hc
    have hka := a.keyAt hc
    have hsec : c.sections = n := by rw [← hst, ← a.secs, sec_some hc]
    rw [allows_append, List.getElem?_append_left, hka] at hk
    · have hkey : c.key = m.key := by simpa using hk
      refine ⟨p, q, i, c.allow, rfl, by rw [hka, hkey], by omega, ?_, ?_⟩
      · rw [← a.now]; exact (a.inv.loaded i c hc).2.1 (by omega)
      · have hd := a.drop
        rw [hlat] at hd
        have := a.inv.latch (by rw [hd]; rfl)
        rw [a.now, (run_const hs).2.2] at this
        exact this
    · by_contra hcn
      rw [List.getElem?_eq_none (by omega)] at hka; cases hka
  · rw [if_neg hk] at h2; cases h2

/-- C37. Every message ever output was received at or after `drop_until`: if all receptions of a message were earlier,
it is never output. -/
theorem C37_nothing_early (np : Nat) (gs : Int → Bool) (du t0 : Int) (h : List (Ev D)) (f : Fw D)
    (hr : run (make D np gs du t0) h = .ok f) (m : Message D)
    (hearly : ∀ h1 h2, h = h1 ++ .msg m :: h2 → clock t0 h1 < du) : m ∉ f.out := by
  intro hm
  obtain ⟨h1, h2, i, a, e, _, _, _, hdu⟩ := output_received hr hm
  have := hearly h1 h2 e
  omega

/-- C38. Every message output was received after an allowance for exactly its protocol, recipient and run id had been
set, at or after the buffer time of that allowance, when its thread had started buffering and had not stopped. -/
theorem C38_only_allowed (np : Nat) (gs : Int → Bool) (du t0 : Int) (h : List (Ev D)) (f : Fw D)
    (hr : run (make D np gs du t0) h = .ok f) (m : Message D) (hm : m ∈ f.out) :
    ∃ h1 h2 i a, h = h1 ++ .msg m :: h2 ∧ (allows h1)[i]? = some (m.key, a) ∧ (steps i h1 = 2 ∨ steps i h1 = 3) ∧
      a.buf ≤ clock t0 h1 := by
  obtain ⟨h1, h2, i, a, e, h3, h4, h5, _⟩ := output_received hr hm
  exact ⟨h1, h2, i, a, e, h3, h4, h5⟩

/-- C38 (deny by default). A run for which no allowance is set gets nothing. -/
theorem C38_default_deny (np : Nat) (gs : Int → Bool) (du t0 : Int) (h : List (Ev D)) (f : Fw D)
    (hr : run (make D np gs du t0) h = .ok f) (k : RunKey) (hk : ∀ a, (k, a) ∉ allows h) : ∀ m ∈ f.out, m.key ≠ k := by
  intro m hm e
  obtain ⟨h1, h2, i, a, e1, h3, _, _⟩ := C38_only_allowed np gs du t0 h f hr m hm
  refine hk a ?_
  rw [e1, allows_append, List.mem_append]
  exact .inl (by rw [← e]; exact List.mem_of_getElem? h3)

/-- C38 (timing). A thread's section happens only when its time has come: buffering not before `buf`, forwarding not
before `start`, stopping not before `stop`. -/
theorem C38_times (np : Nat) (gs : Int → Bool) (du t0 : Int) (h : List (Ev D)) (f : Fw D)
    (hr : run (make D np gs du t0) h = .ok f) (i : Nat) (k : RunKey) (a : Allowance) (hi : (allows h)[i]? = some (k, a)) :
    (2 ≤ steps i h → a.buf ≤ clock t0 h) ∧ (3 ≤ steps i h → a.start ≤ clock t0 h) ∧ (4 ≤ steps i h → a.stop ≤ clock t0 h) ∧
      steps i h ≤ 4 := by
  have ag := agree_run hr
  rw [← ag.calls, List.getElem?_map] at hi
  cases hc : f.calls[i]? with
  | none => rw [hc] at hi; cases hi
  | some c =>
    rw [hc] at hi
    have hi := Option.some.inj hi
    have ha : c.allow = a := by injection hi
    have hs : c.sections = steps i h := by rw [← ag.secs, sec_some hc]
    have := ag.inv.loaded i c hc
    rw [ha, hs, ag.now] at this
    exact ⟨this.2.1, this.2.2.1, this.2.2.2, by rw [← hs]; exact (ag.inv.obs i c hc).2.1⟩

/-- Whether a call started a thread does not change. -/
theorem run_live {x y : Fw D} {g : List (Ev D)} (hxy : run x g = .ok y) {n : Nat} {u : Call} (hu : x.calls[n]? = some u) :
    ∃ v, y.calls[n]? = some v ∧ v.live = u.live := by
  induction g generalizing x u with
  | nil => rw [run] at hxy; exact ⟨u, by rw [← Outcome.ok.inj hxy]; exact hu, rfl⟩
  | cons e g ih =>
    rw [run, Outcome.bind_eq_ok] at hxy
    obtain ⟨z, hz, hzy⟩ := hxy
    obtain ⟨z1, z2, z3⟩ := step_calls hz
    have hn : n < x.calls.length := by
      by_contra hcn
      rw [List.getElem?_eq_none (by omega)] at hu; cases hu
    cases hw : z.calls[n]? with
    | none =>
      have := congrArg List.length z1
      rw [List.length_map, List.length_append, List.length_map] at this
      rw [List.getElem?_eq_none_iff] at hw
      omega
    | some w =>
      rcases z3 n w hw with ⟨u', hu', _, hlv⟩ | ⟨hn', _⟩
      · have := Option.some.inj (hu'.symm.trans hu)
        subst this
        obtain ⟨v, hv, hvl⟩ := ih hzy hw
        exact ⟨v, hv, hvl.trans hlv⟩
      · omega

/-- C40. When the thread of an allowance stops (its fourth section), and until an allowance for the same run is set
again, nothing is output for the run, and no allowance, state or buffered message for it remains. -/
theorem C40_revoked (np : Nat) (gs : Int → Bool) (du t0 : Int) (h1 h2 : List (Ev D)) (i : Nat) (k : RunKey) (al : Allowance)
    (s f : Fw D) (hk : (allows h1)[i]? = some (k, al)) (hi : steps i h1 = 3) (hno : ∀ a, (k, a) ∉ allows h2)
    (hr1 : run (make D np gs du t0) h1 = .ok s) (hr : run (make D np gs du t0) (h1 ++ .step i :: h2) = .ok f) :
    f.out.filter (fun m => decide (m.key = k)) = s.out.filter (fun m => decide (m.key = k)) ∧
      f.allowances.get? k = none ∧ f.state.get? k = none ∧ f.buffer.get? k = none := by
  have a1 := agree_run hr1
  have a := agree_run hr
  have hcall : ∀ j : Nat, ((allows (h1 ++ .step i :: h2))[j]?).map Prod.fst = some k ↔ ((allows h1)[j]?).map Prod.fst = some k := by
    intro j
    have e : allows (h1 ++ .step i :: h2) = allows h1 ++ allows h2 := by rw [allows_append]; rfl
    rw [e, List.getElem?_append]
    by_cases hj : j < (allows h1).length
    · rw [if_pos hj]
    · rw [if_neg hj, List.getElem?_eq_none (by omega : (allows h1).length ≤ j)]
      constructor
      · intro hx
        exfalso
        cases hg : (allows h2)[j - (allows h1).length]? with
        | none => rw [hg] at hx; cases hx
        | some p =>
          rw [hg] at hx
          have hp : p.1 = k := by simpa using hx
          exact hno p.2 (by rw [← hp]; exact List.mem_of_getElem? hg)
      · intro hx; cases hx
  -- the call is active before, and the only one
  obtain ⟨c, hc, hck, hcs⟩ := a1.callAt (i := i) (k := k) (by rw [hk]; rfl)
  have hact := a1.active hc (by omega) (by omega)
  -- afterwards no call for k is active
  have hidle : ∀ j d, Act f j d → d.key ≠ k := by
    intro j d hd hdk
    have hkj : ((allows h1)[j]?).map Prod.fst = some k := by
      rw [← hcall, a.keyAt hd.1]; simp [hdk]
    obtain ⟨d1, hd1, hdk1, hds1⟩ := a1.callAt hkj
    have hsd : steps j (h1 ++ .step i :: h2) = d.sections := by rw [← a.secs, sec_some hd.1]
    have hst : steps i (h1 ++ .step i :: h2) = 4 := by
      have h4 : steps i (h1 ++ .step i :: h2) = steps i h1 + (1 + steps i h2) := by rw [steps_append]; simp [steps]
      have hle := (C38_times np gs du t0 _ f hr i k al (by
        rw [allows_append, List.getElem?_append_left, hk]
        by_contra hcn
        rw [List.getElem?_eq_none (by omega)] at hk; cases hk)).2.2.2
      omega
    by_cases e : j = i
    · subst e
      have := hd.2.2
      omega
    · -- another call: finished or dead before, so it takes no further step
      have hl : d1.live = d.live := by
        obtain ⟨s', hs', hs''⟩ := run_prefix hr
        have := Outcome.ok.inj (hs'.symm.trans hr1)
        subst this
        obtain ⟨v, hv, hvl⟩ := run_live hs'' hd1
        have := Option.some.inj (hv.symm.trans hd.1)
        subst this; exact hvl.symm
      have hnact : ¬ Act s j d1 := fun hx => e (a1.inv.uniq j d1 i c hx hact (hdk1.trans hck.symm))
      have h4 : 4 ≤ d1.sections := by
        by_contra hcn
        exact hnact ⟨hd1, by rw [hl]; exact hd.2.1, by omega⟩
      have hge : steps j h1 ≤ steps j (h1 ++ .step i :: h2) := by rw [steps_append]; omega
      have := hd.2.2
      omega
  refine ⟨?_, ?_, ?_, ?_⟩
  · rw [a.out, a1.out, passedAll, passedAll]
    have hcontr : ∀ j : Nat, (if ((allows (h1 ++ .step i :: h2))[j]?).map Prod.fst = some k then
          passed (!decide (t0 < du)) k (h1 ++ .step i :: h2) j else []) =
        if ((allows h1)[j]?).map Prod.fst = some k then passed (!decide (t0 < du)) k h1 j else [] := by
      intro j
      by_cases hkj : ((allows h1)[j]?).map Prod.fst = some k
      · rw [if_pos hkj, if_pos ((hcall j).2 hkj)]
        have hnone : ∀ n, n = 2 ∨ n = 3 → receivedIn (!decide (t0 < du)) k j n (h1 ++ .step i :: h2) =
            receivedIn (!decide (t0 < du)) k j n h1 := by
          intro n hn
          -- extend the history one event at a time
          have ext : ∀ g, (∃ g', h2 = g ++ g') → receivedIn (!decide (t0 < du)) k j n (h1 ++ .step i :: g) =
              receivedIn (!decide (t0 < du)) k j n h1 := by
            intro g
            induction g using List.reverseRecOn with
            | nil => intro _; rw [receivedIn_other _ _ _ _ _ _ (by simp)]
            | append_singleton g e ih =>
              rintro ⟨g', hg'⟩
              have ihg := ih ⟨e :: g', by rw [hg']; simp⟩
              have e1 : h1 ++ Ev.step i :: (g ++ [e]) = (h1 ++ Ev.step i :: g) ++ [e] := by simp
              rw [e1, receivedIn_append, ihg]
              cases e with
              | msg m =>
                dsimp only
                rw [if_neg, List.append_nil]
                rintro ⟨_, _, hsn⟩
                -- at that moment some call for k would be active
                have hsplit : h1 ++ Ev.step i :: h2 = (h1 ++ Ev.step i :: g) ++ (Ev.msg m :: g') := by rw [hg']; simp
                rw [hsplit] at hr
                obtain ⟨s2, hs2, _⟩ := run_prefix hr
                have a2 := agree_run hs2
                have hkj2 : ((allows (h1 ++ Ev.step i :: g))[j]?).map Prod.fst = some k := by
                  rw [allows_append, List.getElem?_append_left]
                  · exact hkj
                  · by_contra hcn
                    rw [List.getElem?_eq_none (by omega)] at hkj; cases hkj
                obtain ⟨d2, hd2, hdk2, hds2⟩ := a2.callAt hkj2
                have hact2 := a2.active hd2 (by omega) (by omega)
                by_cases e : j = i
                · subst e
                  have : steps j (h1 ++ Ev.step j :: g) = steps j h1 + (1 + steps j g) := by rw [steps_append]; simp [steps]
                  omega
                · obtain ⟨d1, hd1, hdk1, hds1⟩ := a1.callAt hkj
                  have hnact : ¬ Act s j d1 := fun hx => e (a1.inv.uniq j d1 i c hx hact (hdk1.trans hck.symm))
                  have hge : steps j h1 ≤ steps j (h1 ++ .step i :: g) := by rw [steps_append]; omega
                  by_cases hlv : d1.live = true
                  · have h4 : 4 ≤ d1.sections := by
                      by_contra hcn
                      exact hnact ⟨hd1, hlv, by omega⟩
                    omega
                  · -- a dead call takes no step
                    rw [Bool.not_eq_true] at hlv
                    obtain ⟨s', hs', hs''⟩ := run_prefix hs2
                    have := Outcome.ok.inj (hs'.symm.trans hr1)
                    subst this
                    obtain ⟨v, hv, hvl⟩ := run_live hs'' hd1
                    rw [hlv] at hvl
                    have := Option.some.inj (hv.symm.trans hd2)
                    subst this
                    rw [hact2.2.1] at hvl; cases hvl
              | _ => simp
          exact ext h2 ⟨[], by simp⟩
        rw [passed, passed, hnone 2 (.inl rfl), hnone 3 (.inr rfl)]
        congr 1
        by_cases h3 : 3 ≤ steps j h1
        · rw [if_pos h3, if_pos (by rw [steps_append]; omega)]
        · rw [if_neg h3]
          by_cases h3' : 3 ≤ steps j (h1 ++ .step i :: h2)
          · -- it would have to be active now, or to have gone through every section without being active
            exfalso
            have hji : j ≠ i := by rintro rfl; omega
            obtain ⟨d1, hd1, hdk1, hds1⟩ := a1.callAt hkj
            have hnact : ¬ Act s j d1 := fun hx => hji (a1.inv.uniq j d1 i c hx hact (hdk1.trans hck.symm))
            have hlv : d1.live = false := by
              by_contra hlv
              rw [Bool.not_eq_false] at hlv
              exact hnact ⟨hd1, hlv, by omega⟩
            obtain ⟨s', hs', hs''⟩ := run_prefix hr
            have := Outcome.ok.inj (hs'.symm.trans hr1)
            subst this
            obtain ⟨v, hv, hvl⟩ := run_live hs'' hd1
            rw [hlv] at hvl
            have h0 := (a.inv.obs j v hv).2.2 hvl
            have := a.secs j
            rw [sec_some hv] at this
            omega
          · rw [if_neg h3']
      · rw [if_neg hkj, if_neg (fun x => hkj ((hcall j).1 x))]
    have e : allows (h1 ++ .step i :: h2) = allows h1 ++ allows h2 := by rw [allows_append]; rfl
    rw [flat_same (fun j _ => hcontr j), e, List.length_append, List.range_add, List.flatMap_append]
    have : (List.map (fun x => (allows h1).length + x) (List.range (allows h2).length)).flatMap (fun j =>
        if ((allows h1)[j]?).map Prod.fst = some k then passed (!decide (t0 < du)) k h1 j else []) = [] := by
      rw [List.flatMap_eq_nil_iff]
      intro j hj
      rw [List.mem_map] at hj
      obtain ⟨x, _, rfl⟩ := hj
      rw [List.getElem?_eq_none (by omega)]; simp
    rw [this, List.append_nil]
  · cases hg : f.allowances.get? k with
    | none => rfl
    | some x => obtain ⟨j, d, hd, e⟩ := a.inv.allowed k x hg; exact absurd e (hidle j d hd)
  · cases hg : f.state.get? k with
    | none => rfl
    | some x => obtain ⟨j, d, hd, e⟩ := a.inv.stated k x hg; exact absurd e (hidle j d hd)
  · cases hg : f.buffer.get? k with
    | none => rfl
    | some x => obtain ⟨⟨j, d, hd, e, _⟩, _⟩ := a.inv.buffered k x hg; exact absurd e (hidle j d hd)

/-- C41. Whatever the network sends, every message output has a protocol code in range and a local recipient. In
particular its code is not negative, so it is not the signal to delete a run. -/
theorem C41_valid (np : Nat) (gs : Int → Bool) (du t0 : Int) (h : List (Ev D)) (f : Fw D)
    (hr : run (make D np gs du t0) h = .ok f) : ∀ m ∈ f.out, 0 ≤ m.pc ∧ m.pc < np ∧ gs m.rcpt = true := by
  intro m hm
  have hv := (agree_run hr).inv.outs m hm
  obtain ⟨e1, e2, _⟩ := run_const hr
  rw [messageValid_eq, keyValid, e1, e2] at hv
  rw [Bool.and_eq_true, Bool.and_eq_true, decide_eq_true_eq, decide_eq_true_eq] at hv
  exact ⟨hv.1.1, hv.1.2, hv.2⟩

/-- C41. Handling a network message never panics. -/
theorem C41_no_panic (f : Fw D) (m : Message D) : step f (.msg m) ≠ .panic := by simp [step]

/-- C68. In every reachable state a thread that has not finished, and whose times have come, can run its next section:
its observer channel is never full, whether or not anybody reads it. -/
theorem C68_never_blocks (np : Nat) (gs : Int → Bool) (du t0 : Int) (h : List (Ev D)) (f : Fw D)
    (hr : run (make D np gs du t0) h = .ok f) (i : Nat) (c : Call) (hc : f.calls[i]? = some c) (hl : c.live = true)
    (hs : c.sections < 4) (ht : c.allow.buf ≤ f.now ∧ c.allow.start ≤ f.now ∧ c.allow.stop ≤ f.now) :
    c.obs.length < obsCap ∧ ∃ f', step f (.step i) = .ok f' := by
  have inv := (agree_run hr).inv
  have ho := (inv.obs i c hc).1
  have hcap : c.obs.length < obsCap := by rw [obsCap]; omega
  refine ⟨hcap, ?_⟩
  rw [step, stateStep, hc]
  simp only [hl, Bool.not_true, Bool.false_eq_true, if_false]
  by_cases h0 : c.sections = 0
  · rw [if_pos h0]; exact ⟨_, rfl⟩
  have hld := (inv.loaded i c hc).1 (by omega)
  rw [hld, if_neg h0]
  by_cases h1 : c.sections = 1
  · rw [if_pos h1, if_pos ⟨ht.1, hcap⟩]; exact ⟨_, rfl⟩
  rw [if_neg h1]
  by_cases h2 : c.sections = 2
  · rw [if_pos h2, if_pos ⟨ht.2.1, hcap⟩]; exact ⟨_, rfl⟩
  · rw [if_neg h2, if_pos (by omega), if_pos ⟨ht.2.2, hcap⟩]; exact ⟨_, rfl⟩

/-- Two messages and their run. -/
def fwMsg (n : Int) : Message Nat := ⟨0, 0, 1, "run", 1, n.toNat⟩

/-- A session with one allowance: a message before initialisation, one while dropping, two while buffering, one while
forwarding, one after the stop. -/
def fwHistory : List (Ev Nat) :=
  [.msg (fwMsg 0), .tick 10, .latch, .allow ⟨0, 1, "run"⟩ ⟨20, 30, 40⟩, .step 0, .msg (fwMsg 1), .tick 20, .step 0,
   .msg (fwMsg 2), .msg ⟨0, 1, 1, "run", 1, 7⟩, .msg (fwMsg 3), .tick 30, .step 0, .msg (fwMsg 4), .read 0, .tick 40, .step 0,
   .msg (fwMsg 5)]

/-- The history is possible, and exactly the third, fourth and fifth message pass. -/
theorem fwHistory_output : (run (make Nat 2 (fun g => decide (g = 1)) 10 0) fwHistory).isOk = true ∧
    passedAll (!decide ((0 : Int) < 10)) ⟨0, 1, "run"⟩ fwHistory = [fwMsg 2, fwMsg 3, fwMsg 4] := by
  decide +kernel

/-- C37–C41, C68 are not vacuous. -/
example : ∃ f, run (make Nat 2 (fun g => decide (g = 1)) 10 0) fwHistory = .ok f ∧
    f.out.filter (fun m => decide (m.key = ⟨0, 1, "run"⟩)) = [fwMsg 2, fwMsg 3, fwMsg 4] := by
  obtain ⟨f, hf⟩ := (Outcome.isOk_iff _).1 fwHistory_output.1
  exact ⟨f, hf, by rw [C39_output _ _ _ _ _ f hf, fwHistory_output.2]⟩

/-- The hypotheses of C40 hold at the end of that session. -/
example : (allows (fwHistory.take 16))[0]? = some (⟨0, 1, "run"⟩, ⟨20, 30, 40⟩) ∧ steps 0 (fwHistory.take 16) = 3 ∧
    fwHistory.drop 16 = [.step 0, .msg (fwMsg 5)] := ⟨rfl, rfl, rfl⟩

end Verif.Props
