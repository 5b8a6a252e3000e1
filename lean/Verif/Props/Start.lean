import Verif.Model.Start
import Verif.Props.Guests
import Verif.Props.Dto
import Verif.Props.ProgramAgree
import Verif.Props.ProgramTime

/-!
C83-C85: the start of the tool, from the command line and the files to the running program, and two processes started from one host
file.
-/
namespace Verif.Props.Start
open Verif.Point Verif.Layout Verif.Dto Verif.Dss Verif.Dkg Verif.Signode Verif.Start Verif.Props Verif.Spec.Program
variable {K : Type}

/-- The files that the hosts list. -/
def files (entries : List Host) : List String := (entries.map Host.members).flatten

/-- A file of the directory of secrets whose name begins with `secret_` holds the secret key `s`. -/
def HoldsSecret (a : Cmd) (s : Int) : Prop :=
  ∃ n ∈ a.secnames, (∃ rest, n.toList = "secret_".toList ++ rest) ∧ ∃ b, a.secdir n = some b ∧ Scalar.unmarshalBinary b = .ok s

/-- Every such file holds a secret key. -/
def GoodSecrets (a : Cmd) : Prop :=
  ∀ n ∈ a.secnames, (∃ rest, n.toList = "secret_".toList ++ rest) → ∃ b s, a.secdir n = some b ∧ Scalar.unmarshalBinary b = .ok s

theorem startsWith_iff (n pre : String) : n.startsWith pre = true ↔ ∃ rest, n.toList = pre.toList ++ rest := by
  rw [String.startsWith_string_iff]
  exact ⟨fun ⟨r, h⟩ => ⟨r, h.symm⟩, fun ⟨r, h⟩ => ⟨r, h.symm⟩⟩

theorem loadSecrets_ok {a : Cmd} {secrets : List Int} (h : loadSecrets a.secdir a.secnames = .ok secrets) :
    GoodSecrets a ∧ ∀ s, s ∈ secrets ↔ HoldsSecret a s := by
  rw [loadSecrets, Outcome.bind_eq_ok] at h
  obtain ⟨blobs, h1, h2⟩ := h
  rw [slurpAll, slurpAll1, mapO_ok] at h1
  rw [unmarshalSecretKeys, mapO_ok] at h2
  have hx : List.Forall₂ (fun n s => ∃ b, a.secdir n = some b ∧ Scalar.unmarshalBinary b = .ok s) (filterPrefix a.secnames "secret_") secrets := by
    generalize filterPrefix a.secnames "secret_" = names at h1
    induction h1 generalizing secrets with
    | nil => cases h2; exact .nil
    | cons e _ ih =>
      cases h2 with
      | cons e2 h2 =>
        rw [orPanic_ok, Outcome.ofOption_eq_ok] at e
        rw [orPanic_ok] at e2
        exact .cons ⟨_, e, e2⟩ (ih h2)
  constructor
  · intro n hn hp
    obtain ⟨s, _, b, h⟩ := forall2_mem_left hx n (List.mem_filter.2 ⟨hn, (startsWith_iff n _).2 hp⟩)
    exact ⟨b, s, h⟩
  · intro s
    constructor
    · intro hm
      obtain ⟨n, hn, h⟩ := forall2_mem_right hx s hm
      rw [filterPrefix, List.mem_filter] at hn
      exact ⟨n, hn.1, (startsWith_iff n _).1 hn.2, h⟩
    · rintro ⟨n, hn, hp, b, e1, e2⟩
      obtain ⟨s', hs', b', e3, e4⟩ := forall2_mem_left hx n (List.mem_filter.2 ⟨hn, (startsWith_iff n _).2 hp⟩)
      have hb := Option.some.inj (e1.symm.trans e3)
      subst hb
      have := Outcome.ok.inj (e2.symm.trans e4)
      subst this
      exact hs'

theorem loadSecrets_exists {a : Cmd} (h : GoodSecrets a) : ∃ secrets, loadSecrets a.secdir a.secnames = .ok secrets := by
  have key : ∀ names : List String, (∀ n ∈ names, ∃ b s, a.secdir n = some b ∧ Scalar.unmarshalBinary b = .ok s) →
      ∃ blobs secrets, slurpAll1 a.secdir names = .ok blobs ∧ unmarshalSecretKeys blobs = .ok secrets := by
    intro names
    induction names with
    | nil => exact fun _ => ⟨[], [], rfl, rfl⟩
    | cons n names ih =>
      intro hx
      obtain ⟨b, s, e1, e2⟩ := hx n (List.mem_cons_self ..)
      obtain ⟨bs, ss, e3, e4⟩ := ih fun m hm => hx m (List.mem_cons_of_mem _ hm)
      refine ⟨b :: bs, s :: ss, ?_, ?_⟩
      · rw [slurpAll1, mapO_ok] at e3 ⊢
        exact .cons (by rw [e1]; rfl) e3
      · rw [unmarshalSecretKeys, mapO_ok] at e4 ⊢
        exact .cons (by rw [e2]; rfl) e4
  obtain ⟨bs, ss, e1, e2⟩ := key (filterPrefix a.secnames "secret_") (fun n hn => by
    rw [filterPrefix, List.mem_filter] at hn
    exact h n hn.1 ((startsWith_iff n _).1 hn.2))
  exact ⟨ss, by rw [loadSecrets, slurpAll, e1, Outcome.bind_ok, e2]⟩

section NetCaller

theorem addQueues_ok (addrs : List String) : ∀ (ps : List (Nat × Nat)) (qs : List (Option String)), (ps.map Prod.fst).Nodup →
    (∀ p ∈ ps, p.1 < qs.length ∧ ∃ a, addrs[p.2]? = some a) →
    ∃ qs', ps.foldl (fun acc p => acc >>= fun qs => addQueue addrs qs p) (.ok qs) = .ok qs' ∧ qs'.length = qs.length ∧
      (∀ p ∈ ps, ∀ a, addrs[p.2]? = some a → qs'[p.1]? = some (some a)) ∧ ∀ k, k ∉ ps.map Prod.fst → qs'[k]? = qs[k]? := by
  intro ps
  induction ps with
  | nil => exact fun qs _ _ => ⟨qs, rfl, rfl, fun p hp => absurd hp List.not_mem_nil, fun _ _ => rfl⟩
  | cons p ps ih =>
    intro qs hn hv
    rw [List.map_cons, List.nodup_cons] at hn
    obtain ⟨h1, a, h2⟩ := hv p (List.mem_cons_self ..)
    obtain ⟨qs', e1, e2, e3, e4⟩ := ih (qs.set p.1 (some a)) hn.2 (fun q hq => by
      rw [List.length_set]; exact hv q (List.mem_cons_of_mem _ hq))
    refine ⟨qs', ?_, by rw [e2, List.length_set], ?_, ?_⟩
    · rw [List.foldl_cons, ← e1]
      congr 1
      rw [Outcome.bind_ok, addQueue, h2, List.getElem?_eq_getElem h1]; rfl
    · intro q hq b hb
      rcases List.mem_cons.1 hq with rfl | hq
      · have := Option.some.inj (h2.symm.trans hb)
        subst this
        rw [e4 _ hn.1, List.getElem?_set_self h1]
      · exact e3 q hq b hb
    · intro k hk
      rw [List.map_cons, List.mem_cons, not_or] at hk
      rw [e4 k hk.2, List.getElem?_set_ne (fun e => hk.1 e.symm)]

theorem startNetCaller_ok (addrs : List String) (m : GoMap Nat Nat) (hn : m.keys.Nodup) (hk : ∀ k ∈ m.keys, k < m.length)
    (hv : ∀ k j, m.get? k = some j → ∃ a, addrs[j]? = some a) : ∃ qs, startNetCaller addrs m = .ok qs ∧ qs.length = m.length ∧
      ∀ k j a, m.get? k = some j → addrs[j]? = some a → qs[k]? = some (some a) := by
  obtain ⟨qs, h1, h2, h3, _⟩ := addQueues_ok addrs m (List.replicate m.length none) hn (fun p hp => by
    refine ⟨?_, hv p.1 p.2 ((GoMap.mem_iff_get? hn p.1 p.2).1 hp)⟩
    rw [List.length_replicate]
    exact hk p.1 (List.mem_map.2 ⟨p, hp, rfl⟩))
  refine ⟨qs, h1, by rw [h2, List.length_replicate], fun k j a hkj ha => ?_⟩
  exact h3 (k, j) ((GoMap.mem_iff_get? hn k j).2 hkj) a ha

end NetCaller

section Layout
variable {srt : List Member → List Member} {dir : Dir} {conf : Config} {l : Layout}

theorem memberToAddr_nodup (sets : List (List Nat)) : (computeMemberToAddr sets).keys.Nodup := by
  have inner : ∀ (ms : List Nat) (j : Nat) (r : GoMap Nat Nat), r.keys.Nodup → (ms.foldl (fun r m => r.set m j) r).keys.Nodup := by
    intro ms j
    induction ms with
    | nil => exact fun r h => h
    | cons m ms ih => exact fun r h => ih _ (GoMap.nodup_set h m j)
  have outer : ∀ (ps : List (List Nat × Nat)) (r : GoMap Nat Nat), r.keys.Nodup →
      (ps.foldl (fun r (p : List Nat × Nat) => p.1.foldl (fun r m => r.set m p.2) r) r).keys.Nodup := by
    intro ps
    induction ps with
    | nil => exact fun r h => h
    | cons p ps ih => exact fun r h => ih _ (inner p.1 p.2 r h)
  exact outer _ _ List.nodup_nil

/-- On a well-formed configuration every member has an address and nobody else has. -/
theorem memberToAddr_keys (hs : SortContract srt) (hw : WellFormed conf) (h : computeLayout srt dir conf = .ok l) :
    l.memberToAddr.keys.Nodup ∧ l.memberToAddr.length = l.members.length ∧ ∀ k ∈ l.memberToAddr.keys, k < l.members.length := by
  obtain ⟨h1, h2, h3, h4⟩ := layout_parts h
  have hn : l.memberToAddr.keys.Nodup := by rw [h4]; exact memberToAddr_nodup _
  have hlt : ∀ k ∈ l.memberToAddr.keys, k < l.members.length := by
    intro k hk
    rw [← GoMap.get?_isSome_iff, Option.isSome_iff_exists] at hk
    obtain ⟨j, hj⟩ := hk
    rw [h4, memberToAddr_get? _ (indices_nodup hs hw h)] at hj
    obtain ⟨ms, e1, e2⟩ := hj
    obtain ⟨fs, _, e3⟩ := forall2_mem_right (C33_addr_members srt hs dir conf hw l h) ms (List.mem_of_getElem? e1)
    obtain ⟨f, _, m, e4, _⟩ := forall2_mem_right e3 k e2
    exact (List.getElem?_eq_some_iff.1 e4).1
  refine ⟨hn, ?_, hlt⟩
  have hp : l.memberToAddr.keys.Perm (List.range l.members.length) := by
    rw [List.perm_ext_iff_of_nodup hn List.nodup_range]
    intro k
    rw [List.mem_range]
    refine ⟨hlt k, fun hk => ?_⟩
    obtain ⟨j, _, e, _⟩ := (C33_routing srt hs dir conf hw l h).2 l.members[k] (List.getElem_mem hk)
    rw [(C32_index srt hs dir _ _ h1).1 k _ (List.getElem?_eq_getElem hk)] at e
    rw [← GoMap.get?_isSome_iff, e]; rfl
  have := hp.length_eq
  rw [List.length_range, GoMap.keys, List.length_map] at this
  exact this

/-- So `start_net_caller` has a queue for each member, which leads to the address of the host that lists its file. -/
theorem netCaller_layout (hs : SortContract srt) (hw : WellFormed conf) (h : computeLayout srt dir conf = .ok l) :
    ∃ qs, startNetCaller l.addrs l.memberToAddr = .ok qs ∧ qs.length = l.members.length ∧
      ∀ (i : Nat) (m : Member), l.members[i]? = some m → ∀ (j : Nat) fs a, conf.members[j]? = some fs → m.pubfile ∈ fs → conf.addrs[j]? = some a →
        qs[i]? = some (some a) := by
  obtain ⟨h1, h2, h3, h4⟩ := layout_parts h
  obtain ⟨k1, k2, k3⟩ := memberToAddr_keys hs hw h
  obtain ⟨c1, c2⟩ := C33_routing srt hs dir conf hw l h
  have hidx := (C32_index srt hs dir _ _ h1).1
  obtain ⟨qs, e1, e2, e3⟩ := startNetCaller_ok l.addrs l.memberToAddr k1 (fun k hk => by rw [k2]; exact k3 k hk) (by
    intro k j hkj
    have hk : k < l.members.length := k3 k (by rw [← GoMap.get?_isSome_iff, hkj]; rfl)
    obtain ⟨j', a, f1, _, f2⟩ := c2 l.members[k] (List.getElem_mem hk)
    rw [hidx k _ (List.getElem?_eq_getElem hk)] at f1
    have := Option.some.inj (hkj.symm.trans f1)
    subst this
    exact ⟨a, f2⟩)
  refine ⟨qs, e1, by rw [e2, k2], fun i m hm j fs a hj hf ha => ?_⟩
  refine e3 i j a ?_ (by rw [h2]; exact ha)
  rw [← hidx i m hm]
  exact (c1 m (List.mem_of_getElem? hm) j).2 ⟨fs, hj, hf⟩

end Layout

/-- The steps of `main`. -/
theorem start_parts {w : World K} {a : Cmd} {st : Started} (h : start w a = .ok st) : ∃ conf secrets, loadConfig a.conf = .ok conf ∧
    computeLayout w.srt a.pubdir conf = .ok st.layout ∧ loadSecrets a.secdir a.secnames = .ok secrets ∧
    computeGuests st.layout secrets = .ok st.guests ∧ atoi a.threshold = some st.threshold ∧ dropTime w a.dropUntil = .ok st.dropUntil ∧
    st.startAt = startTime st.dropUntil ∧
    loadShares a.longterms st.guests = .ok st.longterms ∧
    verifyConfig w st.layout.members st.guests st.threshold = .ok () ∧ startNetCallers st.layout st.guests = .ok st.callers ∧
    startListeners w st.guests = .ok st.listen := by
  simp only [start, Outcome.bind_eq_ok] at h
  obtain ⟨conf, h1, l, h2, secrets, h3, guests, h4, t, h5, du, h6, longs, h7, u, h8, callers, h9, listen, h10, h11⟩ := h
  have e := Outcome.ok.inj h11
  subst e
  rw [orPanic_ok, Outcome.ofOption_eq_ok] at h5
  refine ⟨conf, secrets, h1, h2, h3, h4, h5, h6, rfl, h7, h8, h9, h10⟩

/-- A configuration that hostcomp made of host entries that list no file twice. -/
structure Compiled (a : Cmd) (entries : List Host) : Prop where
  conf : a.conf = expandConfig entries
  once : (files entries).Nodup

theorem compiled_conf {a : Cmd} {entries : List Host} (hc : Compiled a entries) : ∃ conf, loadConfig a.conf = .ok conf ∧ WellFormed conf ∧
    conf.addrs = entries.map Host.addr ∧ conf.members = entries.map Host.members ∧ conf.pubfiles = files entries := by
  have h := C35_compile_load entries
  rw [← hc.conf] at h
  refine ⟨_, h, ?_, rfl, rfl, rfl⟩
  rw [hc.conf] at h
  exact C35_wellFormed entries hc.once _ h

/-- `start_parts` for a compiled configuration. -/
theorem start_compiled {w : World K} {a : Cmd} {entries : List Host} (hc : Compiled a entries) {st : Started} (h : start w a = .ok st) :
    ∃ conf secrets, loadConfig a.conf = .ok conf ∧ WellFormed conf ∧
      conf.addrs = entries.map Host.addr ∧ conf.members = entries.map Host.members ∧ conf.pubfiles = files entries ∧
      computeLayout w.srt a.pubdir conf = .ok st.layout ∧ loadSecrets a.secdir a.secnames = .ok secrets ∧
      computeGuests st.layout secrets = .ok st.guests := by
  obtain ⟨conf, secrets, h1, h2, h3, h4, _⟩ := start_parts h
  obtain ⟨conf', e1, e2, e3, e4, e5⟩ := compiled_conf hc
  have := Outcome.ok.inj (h1.symm.trans e1)
  subst this
  exact ⟨conf, secrets, h1, e2, e3, e4, e5, h2, h3, h4⟩

/-- What is known of a guest. -/
theorem guest_facts {w : World K} (hs : SortContract w.srt) {a : Cmd} {entries : List Host} (hc : Compiled a entries) {st : Started}
    (h : start w a = .ok st) : st.guests.keys.Nodup ∧
      (∀ i, (∃ e, st.guests.get? i = some e) ↔ ∃ s, HoldsSecret a s ∧ IsKeyOf st.layout.members i s) ∧
      ∀ i e, st.guests.get? i = some e → HoldsSecret a e.sec ∧ IsKeyOf st.layout.members i e.sec ∧
        ∃ m b, st.layout.members[i]? = some m ∧ b ∈ entries ∧ m.pubfile ∈ b.members ∧ e.addr = b.addr := by
  obtain ⟨conf, secrets, h1, h2, h3, h4, h5, h6, h7, h8⟩ := start_compiled hc h
  obtain ⟨_, hsec⟩ := loadSecrets_ok h7
  obtain ⟨g, g1, g2, g3, g4⟩ := C34_guests w.srt hs a.pubdir conf h2 st.layout h6 secrets
  have := Outcome.ok.inj (g1.symm.trans h8)
  subst this
  refine ⟨g4, fun i => ?_, fun i e he => ?_⟩
  · rw [g2 i]
    exact ⟨fun ⟨s, a1, a2⟩ => ⟨s, (hsec s).1 a1, a2⟩, fun ⟨s, a1, a2⟩ => ⟨s, (hsec s).2 a1, a2⟩⟩
  · obtain ⟨_, a1, a2, m, a3, _, _, a4, fs, a5, a6⟩ := g3 i e he
    refine ⟨(hsec _).1 a1, a2, m, ?_⟩
    rw [h4, List.getElem?_map, Option.map_eq_some_iff] at a5
    obtain ⟨b, b1, rfl⟩ := a5
    rw [h3, List.getElem?_map, b1] at a4
    exact ⟨b, a3, List.mem_of_getElem? b1, a6, (Option.some.inj a4).symm⟩

/-- C83 (guests). The guests of a process are the members whose secret keys it holds; each has that secret and the address of the host
that lists its file. -/
theorem C83_guests (w : World K) (hs : SortContract w.srt) (a : Cmd) (entries : List Host) (hc : Compiled a entries) (st : Started)
    (h : start w a = .ok st) (hn : (memberPubs st.layout.members).Nodup) (i : Nat) (m : Member) (hm : st.layout.members[i]? = some m) :
    ((∃ e, st.guests.get? i = some e) ↔ ∃ s, HoldsSecret a s ∧ mulBase s = .ok m.pub) ∧
      ∀ e, st.guests.get? i = some e → HoldsSecret a e.sec ∧ mulBase e.sec = .ok m.pub ∧ ∃ b ∈ entries, m.pubfile ∈ b.members ∧ e.addr = b.addr := by
  obtain ⟨_, g1, g2⟩ := guest_facts hs hc h
  refine ⟨?_, fun e he => ?_⟩
  · rw [g1 i]
    exact exists_congr fun s => and_congr_right fun _ => C34_distinct_keys _ hn i m s hm
  · obtain ⟨e1, e2, m', b, e3, e4, e5, e6⟩ := g2 i e he
    have := Option.some.inj (hm.symm.trans e3)
    subst this
    exact ⟨e1, (C34_distinct_keys _ hn i m e.sec hm).1 e2, b, e4, e5, e6⟩

/-- C83 (refusal). A process whose configuration is compiled gets to the point of running a protocol only if every listed file holds
a public key, every `secret_` file a secret key, the threshold is a number, the time can be read, and for every guest the generator
accepts the keys and the threshold, the address can be listened on and, in the mode that signs, the file of long-term keys has a share. -/
theorem C83_refuses (w : World K) (hs : SortContract w.srt) (a : Cmd) (entries : List Host) (hc : Compiled a entries) (st : Started)
    (h : start w a = .ok st) : (∀ f ∈ files entries, ∃ p, HoldsKey a.pubdir f p) ∧ GoodSecrets a ∧ atoi a.threshold = some st.threshold ∧
      (a.dropUntil = "_" ∨ w.parse a.dropUntil = some st.dropUntil) ∧
      ∀ i e, st.guests.get? i = some e → w.canListen e.addr = true ∧ (∃ k, w.newGen e.sec (memberPubs st.layout.members) st.threshold = .ok k) ∧
        (a.longterms ≠ none → ∃ long, st.longterms.get? (i : Int) = some long) := by
  obtain ⟨_, _, _, _, _, _, h5, h6, _, h7, h8, _, h10⟩ := start_parts h
  obtain ⟨conf, secrets, _, g2, g3, g4, g5, g6, g7, g8⟩ := start_compiled hc h
  refine ⟨fun f hf => ?_, (loadSecrets_ok g7).1, h5, ?_, fun i e he => ⟨?_, ?_, fun hl => ?_⟩⟩
  · exact C31_refuses w.srt a.pubdir _ _ (layout_parts g6).1 f (by rw [g5]; exact hf)
  · by_cases hd : a.dropUntil = "_"
    · exact .inl hd
    · rw [dropTime, if_neg hd, orPanic_ok, Outcome.ofOption_eq_ok] at h6
      exact .inr h6
  · rw [startListeners, Outcome.bind_eq_ok] at h10
    obtain ⟨_, e1, _⟩ := h10
    rw [mapO_ok] at e1
    have hm : (i, e) ∈ st.guests := (GoMap.mem_iff_get? (guest_facts hs hc h).1 i e).2 he
    obtain ⟨_, _, e2⟩ := forall2_mem_left e1 e.addr
      (((C63_unique (st.guests.map fun p => p.2.addr) _ (List.Perm.refl _)).2 _).2 (List.mem_map.2 ⟨_, hm, rfl⟩))
    rw [orPanic_ok] at e2
    cases hcl : w.canListen e.addr with
    | true => rfl
    | false => rw [hcl] at e2; cases e2
  · rw [verifyConfig, Outcome.bind_eq_ok] at h8
    obtain ⟨_, e1, _⟩ := h8
    rw [mapO_ok] at e1
    obtain ⟨_, _, e2⟩ := forall2_mem_left e1 0 (List.mem_cons_self ..)
    rw [mapO_ok] at e2
    have hm : (i, e) ∈ st.guests := (GoMap.mem_iff_get? (guest_facts hs hc h).1 i e).2 he
    obtain ⟨k, _, e3⟩ := forall2_mem_left e2 _ hm
    rw [orPanic_ok] at e3
    exact ⟨k, e3⟩
  · obtain ⟨file, hf⟩ := Option.ne_none_iff_exists'.1 hl
    rw [hf, loadShares] at h7
    refine C30_coverage _ file _ h7 (i : Int) e ?_
    have key : ∀ m : GoMap Nat Guest, GoMap.get? (m.map fun p => ((p.1 : Int), p.2)) (i : Int) = m.get? i := by
      intro m
      induction m with
      | nil => rfl
      | cons p m ih =>
        rw [List.map_cons, GoMap.get?_cons, GoMap.get?_cons, ih]
        simp only [Nat.cast_inj]
    rw [key]; exact he

theorem mapO_exists {α β : Type} {f : α → Outcome β} : ∀ {xs : List α}, (∀ x ∈ xs, ∃ y, f x = .ok y) → ∃ ys, mapO f xs = .ok ys := by
  intro xs
  induction xs with
  | nil => exact fun _ => ⟨[], rfl⟩
  | cons x xs ih =>
    intro h
    obtain ⟨y, hy⟩ := h x (List.mem_cons_self ..)
    obtain ⟨ys, hys⟩ := ih fun z hz => h z (List.mem_cons_of_mem _ hz)
    rw [mapO_ok] at hys
    exact ⟨y :: ys, (mapO_ok _ _ _).2 (.cons hy hys)⟩

theorem castGuests_get? (m : GoMap Nat Guest) (x : Int) (e : Guest) :
    GoMap.get? (m.map fun p => ((p.1 : Int), p.2)) x = some e ↔ ∃ i : Nat, x = (i : Int) ∧ m.get? i = some e := by
  induction m with
  | nil => simp
  | cons p m ih =>
    rw [List.map_cons, GoMap.get?_cons]
    by_cases hx : (p.1 : Int) = x
    · rw [if_pos hx]
      constructor
      · intro h; exact ⟨p.1, hx.symm, by rw [GoMap.get?_cons, if_pos rfl]; exact h⟩
      · rintro ⟨i, rfl, h⟩
        rw [GoMap.get?_cons, if_pos (Int.ofNat.inj hx)] at h
        exact h
    · rw [if_neg hx, ih]
      constructor
      · rintro ⟨i, rfl, h⟩
        exact ⟨i, rfl, by rw [GoMap.get?_cons, if_neg (fun e => hx (congrArg Int.ofNat e))]; exact h⟩
      · rintro ⟨i, rfl, h⟩
        rw [GoMap.get?_cons, if_neg (fun e => hx (congrArg Int.ofNat e))] at h
        exact ⟨i, rfl, h⟩

theorem netCallers_ok {l : Layout} {qs : List (Option String)} (h : startNetCaller l.addrs l.memberToAddr = .ok qs) (guests : GoMap Nat Guest) :
    ∃ cs, startNetCallers l guests = .ok cs ∧ ∀ k v, GoMap.get? cs k = some v ↔ v = qs ∧ (k.1 = 0 ∨ k.1 = 1) ∧ ∃ i ∈ guests.keys, k.2 = (i : Int) := by
  have key : ∀ ks : List (Int × Int), mapO (fun (k : Int × Int) => startNetCaller l.addrs l.memberToAddr >>= fun qs => .ok (k, qs)) ks =
      .ok (ks.map fun k => (k, qs)) := by
    intro ks
    rw [mapO_ok, List.forall₂_map_right_iff, List.forall₂_same]
    intro k _
    rw [h]; rfl
  have get : ∀ (ks : List (Int × Int)) (k : Int × Int) (v : List (Option String)),
      GoMap.get? (ks.map fun k => (k, qs)) k = some v ↔ v = qs ∧ k ∈ ks := by
    intro ks k v
    induction ks with
    | nil => simp
    | cons k' ks ih =>
      rw [List.map_cons, GoMap.get?_cons, List.mem_cons]
      by_cases hk : k' = k
      · rw [if_pos hk]; simp [hk, eq_comm]
      · rw [if_neg hk, ih]; simp [show ¬ k = k' from fun e => hk e.symm]
  refine ⟨_, by rw [startNetCallers, key], fun k v => ?_⟩
  rw [get]
  simp only [List.mem_flatMap, List.mem_cons, List.not_mem_nil, or_false, List.mem_map, GoMap.keys]
  constructor
  · rintro ⟨e, pc, hpc, p, hp, rfl⟩
    exact ⟨e, hpc, p.1, ⟨p, hp, rfl⟩, rfl⟩
  · rintro ⟨e, hpc, i, ⟨p, hp, rfl⟩, h2⟩
    exact ⟨e, k.1, hpc, p, hp, by rw [← h2]⟩

/-- C83 (start). A process whose configuration is compiled starts if every listed file holds a public key and every `secret_` file a
secret key, threshold and time can be read, the generator accepts the keys and the threshold, the addresses can be listened on, and the
file of long-term keys, if given, was saved with a share for each guest. -/
theorem C83_starts (w : World K) (hs : SortContract w.srt) (a : Cmd) (entries : List Host) (hc : Compiled a entries)
    (hpub : ∀ f ∈ files entries, ∃ p, HoldsKey a.pubdir f p) (hsec : GoodSecrets a) (t : Int) (ht : atoi a.threshold = some t)
    (hdu : a.dropUntil = "_" ∨ ∃ du, w.parse a.dropUntil = some du)
    (hgen : ∀ s keys, HoldsSecret a s → (∀ p, p ∈ keys ↔ ∃ f ∈ files entries, HoldsKey a.pubdir f p) → ∃ k, w.newGen s keys t = .ok k)
    (hlisten : ∀ e ∈ entries, w.canListen e.addr = true)
    (hlong : ∀ file, a.longterms = some file → ∃ lts : GoMap Int KeyShare, saveLongterms lts = .ok file ∧ lts.keys.Nodup ∧
      (∀ i s, lts.get? i = some s → GoodKeyShare s) ∧
      ∀ ms, loadAndSort w.srt a.pubdir (files entries) = .ok ms → ∀ i s, HoldsSecret a s → IsKeyOf ms i s → ∃ k, lts.get? (i : Int) = some k) :
    ∃ st, start w a = .ok st := by
  obtain ⟨conf, h1, h2, h3, h4, h5⟩ := compiled_conf hc
  obtain ⟨ms, hms⟩ : ∃ ms, loadAndSort w.srt a.pubdir (files entries) = .ok ms := by
    have : ∀ names : List String, (∀ f ∈ names, ∃ p, HoldsKey a.pubdir f p) → ∃ ks, List.Forall₂ (HoldsKey a.pubdir) names ks := by
      intro names
      induction names with
      | nil => exact fun _ => ⟨[], .nil⟩
      | cons n names ih =>
        intro h
        obtain ⟨p, hp⟩ := h n (List.mem_cons_self ..)
        obtain ⟨ks, hks⟩ := ih fun m hm => h m (List.mem_cons_of_mem _ hm)
        exact ⟨p :: ks, .cons hp hks⟩
    obtain ⟨ks, hks⟩ := this _ hpub
    obtain ⟨ms, _, e, _⟩ := C31_same_order w.srt w.srt hs hs a.pubdir a.pubdir _ _ ks ks hks hks (List.Perm.refl _)
    exact ⟨ms, e⟩
  obtain ⟨l, hl, hlm⟩ : ∃ l, computeLayout w.srt a.pubdir conf = .ok l ∧ l.members = ms := by
    refine ⟨_, by rw [computeLayout, h5, hms]; rfl, rfl⟩
  obtain ⟨secrets, hsecs⟩ := loadSecrets_exists hsec
  obtain ⟨_, hsm⟩ := loadSecrets_ok hsecs
  obtain ⟨g, g1, g2, g3, g4⟩ := C34_guests w.srt hs a.pubdir conf h2 l hl secrets
  obtain ⟨du, hd⟩ : ∃ du, dropTime w a.dropUntil = .ok du := by
    rcases hdu with e | ⟨du, e⟩
    · exact ⟨_, by rw [dropTime, if_pos e]⟩
    · by_cases h_ : a.dropUntil = "_"
      · exact ⟨_, by rw [dropTime, if_pos h_]⟩
      · exact ⟨du, by rw [dropTime, if_neg h_, e]; rfl⟩
  have hin : ∀ p ∈ g, HoldsSecret a p.2.sec ∧ IsKeyOf l.members p.1 p.2.sec ∧ ∃ b ∈ entries, p.2.addr = b.addr := by
    intro p hp
    obtain ⟨_, a1, a2, m, a3, _, _, a4, fs, a5, a6⟩ := g3 p.1 p.2 ((GoMap.mem_iff_get? g4 p.1 p.2).1 hp)
    refine ⟨(hsm _).1 a1, a2, ?_⟩
    rw [h3, List.getElem?_map, Option.map_eq_some_iff] at a4
    obtain ⟨b, b1, b2⟩ := a4
    exact ⟨b, List.mem_of_getElem? b1, b2.symm⟩
  obtain ⟨longs, hlo⟩ : ∃ longs, loadShares a.longterms g = .ok longs := by
    cases hf : a.longterms with
    | none => exact ⟨[], rfl⟩
    | some file =>
      obtain ⟨lts, f1, f2, f3, f4⟩ := hlong file hf
      obtain ⟨file', f5, f6, _⟩ := C30_save_load lts f3 f2 (g.map fun p => ((p.1 : Int), p.2))
      have := Outcome.ok.inj (f1.symm.trans f5)
      subst this
      obtain ⟨lts', f7, _⟩ := f6 (by
        rintro x ⟨e, he⟩
        obtain ⟨i, rfl, hi⟩ := (castGuests_get? g x e).1 he
        obtain ⟨b1, b2, _⟩ := hin (i, e) ((GoMap.mem_iff_get? g4 i e).2 hi)
        exact f4 ms hms i e.sec b1 (by rw [← hlm]; exact b2))
      exact ⟨lts', f7⟩
  have hver : verifyConfig w l.members g t = .ok () := by
    obtain ⟨ys, hys⟩ : ∃ ys, mapO (fun p : Nat × Guest => (w.newGen p.2.sec (memberPubs l.members) t).orPanic) g = .ok ys := by
      refine mapO_exists fun p hp => ?_
      obtain ⟨_, perm, holds⟩ := C32_index w.srt hs a.pubdir _ _ hms
      obtain ⟨k, hk⟩ := hgen p.2.sec (memberPubs l.members) (hin p hp).1 (fun q => by
        rw [hlm, memberPubs, List.mem_map]
        constructor
        · rintro ⟨m, hm, rfl⟩
          exact ⟨m.pubfile, perm.mem_iff.1 (List.mem_map.2 ⟨m, hm, rfl⟩), holds m hm⟩
        · rintro ⟨f, hf, hq⟩
          obtain ⟨m, hm, rfl⟩ := List.mem_map.1 (perm.mem_iff.2 hf)
          exact ⟨m, hm, Loaded.unique (holds m hm) hq⟩)
      exact ⟨k, by rw [hk]; rfl⟩
    obtain ⟨zs, hzs⟩ : ∃ zs, mapO (fun _ : Nat => mapO (fun p : Nat × Guest => (w.newGen p.2.sec (memberPubs l.members) t).orPanic) g) [0, 1] = .ok zs :=
      mapO_exists fun _ _ => ⟨ys, hys⟩
    rw [verifyConfig, hzs]; rfl
  obtain ⟨qs, hqs, _⟩ := netCaller_layout hs h2 hl
  obtain ⟨cs, hcs, _⟩ := netCallers_ok hqs g
  obtain ⟨ads, hads⟩ : ∃ ads, startListeners w g = .ok ads := by
    have : ∀ ad ∈ (uniqueSet (g.map fun p => p.2.addr)).keys, w.canListen ad = true := by
      intro ad had
      have := ((C63_unique (g.map fun p => p.2.addr) _ (List.Perm.refl _)).2 ad).1 had
      obtain ⟨p, hp, rfl⟩ := List.mem_map.1 this
      obtain ⟨_, _, b, hb, e⟩ := hin p hp
      rw [e]; exact hlisten b hb
    obtain ⟨ys, hys⟩ := mapO_exists (f := fun ad => (Outcome.require (w.canListen ad)).orPanic) (xs := (uniqueSet (g.map fun p => p.2.addr)).keys)
      (fun ad had => ⟨(), by rw [this ad had]; rfl⟩)
    exact ⟨_, by rw [startListeners, hys]; rfl⟩
  refine ⟨⟨l, g, t, du, Start.startTime du, longs, cs, ads⟩, ?_⟩
  rw [start, h1, Outcome.bind_ok, hl, Outcome.bind_ok, hsecs, Outcome.bind_ok, g1, Outcome.bind_ok, ht, Outcome.ofOption_some, Outcome.orPanic_ok,
    Outcome.bind_ok, hd, Outcome.bind_ok, hlo, Outcome.bind_ok, hver, Outcome.bind_ok, hcs, Outcome.bind_ok, hads, Outcome.bind_ok]
  rfl

/-- C84 (routes). In a process whose configuration is compiled, each guest has for each of the two protocols one queue per member, and
what is sent to member `i` goes to the address of the host that lists the file of member `i`. -/
theorem C84_routes (w : World K) (hs : SortContract w.srt) (a : Cmd) (entries : List Host) (hc : Compiled a entries) (st : Started)
    (h : start w a = .ok st) (pc : Int) (hpc : pc = 0 ∨ pc = 1) (x : Nat) (e : Guest) (hx : st.guests.get? x = some e) :
    ∃ qs, st.callers.get? (pc, (x : Int)) = some qs ∧ qs.length = st.layout.members.length ∧
      ∀ (i : Nat) (m : Member), st.layout.members[i]? = some m →
        ∃ b ∈ entries, m.pubfile ∈ b.members ∧ queueOf qs i = .ok (some b.addr) := by
  obtain ⟨_, _, _, _, _, _, _, _, _, _, _, h9, _⟩ := start_parts h
  obtain ⟨conf, secrets, g1, g2, g3, g4, g5, g6, g7, g8⟩ := start_compiled hc h
  obtain ⟨qs, q1, q2, q3⟩ := netCaller_layout hs g2 g6
  obtain ⟨cs, c1, c2⟩ := netCallers_ok q1 st.guests
  have := Outcome.ok.inj (c1.symm.trans h9)
  subst this
  refine ⟨qs, (c2 _ _).2 ⟨rfl, hpc, x, by rw [← GoMap.get?_isSome_iff, hx]; rfl, rfl⟩, q2, fun i m hm => ?_⟩
  have hf : m.pubfile ∈ files entries := by
    rw [← g5]
    exact (C32_index w.srt hs a.pubdir _ _ (layout_parts g6).1).2.1.mem_iff.1 (List.mem_map.2 ⟨m, List.mem_of_getElem? hm, rfl⟩)
  rw [files, List.mem_flatten] at hf
  obtain ⟨fs, f1, f2⟩ := hf
  obtain ⟨b, b1, rfl⟩ := List.mem_map.1 f1
  obtain ⟨j, hj, rfl⟩ := List.getElem_of_mem b1
  refine ⟨_, b1, f2, ?_⟩
  have := q3 i m hm j entries[j].members entries[j].addr (by rw [g4, List.getElem?_map, List.getElem?_eq_getElem hj]; rfl) f2
    (by rw [g3, List.getElem?_map, List.getElem?_eq_getElem hj]; rfl)
  rw [queueOf, if_pos (Int.natCast_nonneg i), Int.toNat_natCast, this]; rfl

/-- C84 (listening). A process listens on the addresses of its guests, once on each, and on no others. -/
theorem C84_listens (w : World K) (hs : SortContract w.srt) (a : Cmd) (entries : List Host) (hc : Compiled a entries) (st : Started)
    (h : start w a = .ok st) : st.listen.Nodup ∧ ∀ ad, ad ∈ st.listen ↔ ∃ i e, st.guests.get? i = some e ∧ e.addr = ad := by
  have hn := (guest_facts hs hc h).1
  obtain ⟨_, _, _, _, _, _, _, _, _, _, _, _, h10⟩ := start_parts h
  rw [startListeners, Outcome.bind_eq_ok] at h10
  obtain ⟨_, _, e⟩ := h10
  have e := Outcome.ok.inj e
  obtain ⟨u1, u2⟩ := C63_unique (st.guests.map fun p => p.2.addr) _ (List.Perm.refl _)
  refine ⟨by rw [← e]; exact u1, fun ad => ?_⟩
  rw [← e, u2 ad, List.mem_map]
  constructor
  · rintro ⟨p, hp, rfl⟩
    exact ⟨p.1, p.2, (GoMap.mem_iff_get? hn p.1 p.2).1 hp, rfl⟩
  · rintro ⟨i, e, he, rfl⟩
    exact ⟨(i, e), (GoMap.mem_iff_get? hn i e).2 he, rfl⟩

/-- The files of one process hold the keys `ks`, in order. -/
def HoldKeys (a : Cmd) (entries : List Host) (ks : List Pt) : Prop := List.Forall₂ (HoldsKey a.pubdir) (files entries) ks

/-- Processes with the same keys number them alike. -/
theorem same_members {w w' : World K} (hs : SortContract w.srt) (hs' : SortContract w'.srt) {a a' : Cmd} {entries entries' : List Host}
    (hc : Compiled a entries) (hc' : Compiled a' entries') {ks ks' : List Pt} (hk : HoldKeys a entries ks) (hk' : HoldKeys a' entries' ks')
    (hp : ks.Perm ks') {st st' : Started} (h : start w a = .ok st) (h' : start w' a' = .ok st') :
    memberPubs st.layout.members = memberPubs st'.layout.members ∧ (memberPubs st.layout.members).Perm ks := by
  obtain ⟨conf, _, _, _, _, _, g5, g6, _⟩ := start_compiled hc h
  obtain ⟨conf', _, _, _, _, _, g5', g6', _⟩ := start_compiled hc' h'
  obtain ⟨ms, ms', e, e', e1, e2⟩ := C31_same_order w.srt w'.srt hs hs' a.pubdir a'.pubdir _ _ ks ks' hk hk' hp
  have h1 := (layout_parts g6).1
  have h1' := (layout_parts g6').1
  rw [g5] at h1
  rw [g5'] at h1'
  have := Outcome.ok.inj (h1.symm.trans e)
  subst this
  have := Outcome.ok.inj (h1'.symm.trans e')
  subst this
  exact ⟨e1, e2⟩

/-- C84 (reach). Two processes are started from the same hosts, and their files hold the same keys, all different. What a guest of one
of them sends to a guest `y` of the other one, as numbered there, goes to an address on which the other one listens. -/
theorem C84_reaches (w w' : World K) (hs : SortContract w.srt) (hs' : SortContract w'.srt) (a a' : Cmd) (entries : List Host)
    (hc : Compiled a entries) (hc' : Compiled a' entries) (ks : List Pt) (hk : HoldKeys a entries ks) (hk' : HoldKeys a' entries ks)
    (hn : ks.Nodup) (st st' : Started) (h : start w a = .ok st) (h' : start w' a' = .ok st')
    (pc : Int) (hpc : pc = 0 ∨ pc = 1) (x y : Nat) (e e' : Guest) (hx : st.guests.get? x = some e) (hy : st'.guests.get? y = some e') :
    ∃ qs addr, st.callers.get? (pc, (x : Int)) = some qs ∧ queueOf qs y = .ok (some addr) ∧ addr ∈ st'.listen := by
  obtain ⟨qs, q1, q2, q3⟩ := C84_routes w hs a entries hc st h pc hpc x e hx
  obtain ⟨_, _, gf⟩ := guest_facts hs' hc' h'
  obtain ⟨_, _, m', b', hm', hb', hf', ha'⟩ := gf y e' hy
  obtain ⟨hmem, _⟩ := same_members hs hs' hc hc' hk hk' (List.Perm.refl _) h h'
  have hlt : y < st.layout.members.length := by
    have hl : st.layout.members.length = st'.layout.members.length := by
      have := congrArg List.length hmem
      rwa [memberPubs, memberPubs, List.length_map, List.length_map] at this
    rw [hl]
    exact (List.getElem?_eq_some_iff.1 hm').1
  have hm : st.layout.members[y]? = some st.layout.members[y] := List.getElem?_eq_getElem hlt
  generalize st.layout.members[y] = m at hm
  obtain ⟨b, hb, hf, hq⟩ := q3 y m hm
  -- both files hold the key of member y
  have hpub : m.pub = m'.pub := by
    have := congrArg (fun l => l[y]?) hmem
    simp only [memberPubs, List.getElem?_map, hm, hm', Option.map_some, Option.some.injEq] at this
    exact this
  obtain ⟨conf, _, _, _, _, _, g5, g6, _⟩ := start_compiled hc h
  obtain ⟨conf', _, _, _, _, _, g5', g6', _⟩ := start_compiled hc' h'
  have k1 := (C32_index w.srt hs a.pubdir _ _ (layout_parts g6).1).2.2 m (List.mem_of_getElem? hm)
  have k2 := (C32_index w'.srt hs' a'.pubdir _ _ (layout_parts g6').1).2.2 m' (List.mem_of_getElem? hm')
  have mem : ∀ {f : String} {b : Host}, b ∈ entries → f ∈ b.members → f ∈ files entries := fun hb hf =>
    List.mem_flatten.2 ⟨_, List.mem_map.2 ⟨_, hb, rfl⟩, hf⟩
  have hfile : m.pubfile = m'.pubfile := by
    obtain ⟨i, hi, ei⟩ := List.getElem_of_mem (mem hb hf)
    obtain ⟨i', hi', ei'⟩ := List.getElem_of_mem (mem hb' hf')
    have hl := hk.length_eq
    have v1 := hk.get hi (by omega)
    have v2 := hk'.get hi' (by omega)
    simp only [List.get_eq_getElem] at v1 v2
    rw [ei] at v1
    rw [ei'] at v2
    have w1 : m.pub = ks[i]'(by omega) := Loaded.unique k1 v1
    have w2 : m'.pub = ks[i']'(by omega) := Loaded.unique k2 v2
    have : i = i' := (hn.getElem_inj_iff).1 (w1.symm.trans (hpub.trans w2))
    subst this
    rw [← ei, ei']
  have hbb : b = b' := by
    have hno := List.nodup_flatten.1 hc.once
    by_contra hne
    have := hno.2
    rw [List.pairwise_map] at this
    obtain ⟨i, hi, ei⟩ := List.getElem_of_mem hb
    obtain ⟨i', hi', ei'⟩ := List.getElem_of_mem hb'
    rw [List.pairwise_iff_getElem] at this
    rcases Nat.lt_trichotomy i i' with lt | eq | gt
    · exact (this i i' hi hi' lt) (by rw [ei]; exact hf) (by rw [ei', hfile]; exact hf')
    · subst eq; exact hne (ei.symm.trans ei')
    · exact (this i' i hi' hi gt) (a := m.pubfile) (by rw [ei', hfile]; exact hf') (by rw [ei]; exact hf)
  refine ⟨qs, b.addr, q1, hq, ((C84_listens w' hs' a' entries hc' st' h').2 _).2 ⟨y, e', hy, ?_⟩⟩
  rw [ha', hbb]

/-- The file of long-term keys was saved from shares of the polynomial `ls`. -/
def SavedShares (a : Cmd) (ls : List Nat) : Prop :=
  ∃ (lts : GoMap Int KeyShare) (file : GoMap Int DksDTO), a.longterms = some file ∧ saveLongterms lts = .ok file ∧ lts.keys.Nodup ∧
    ∀ i s, lts.get? i = some s → GoodKeyShare s ∧ s.commits = ls.map (timesAdd base) ∧
      (s.share.V - peval ls (i.toNat + 1)) % secp256k1N = 0

/-- The group that signs a request. -/
def groupOf (st : Started) (ls rs : List Nat) (j : Job) : Group := ⟨jobId j, memberPubs st.layout.members, st.threshold, ls, rs, j.doc⟩

/-- C85 (ready). A process that was started with a compiled configuration and a file of shares of one long-term key is ready to sign in
the sense of C80 and C81, whatever has happened in it, if its requests have different run identifiers. -/
theorem C85_ready (w : World K) (hs : SortContract w.srt) (a : Cmd) (entries : List Host) (hc : Compiled a entries) (st : Started)
    (h : start w a = .ok st) (ls : List Nat) (hsh : SavedShares a ls) (r : Rest K) (hist : List Program.Ev) (s : Program.Sys K)
    (hrun : Program.run (programCfg st r) (Program.init (programCfg st r)) hist = .ok s) (hids : ((requests hist).map jobId).Nodup)
    (g : Group) (hkeys : g.keys = memberPubs st.layout.members) (hT : g.T = st.threshold) (hls : g.ls = ls) :
    Program.Process.Ready ⟨programCfg st r, hist, s⟩ r.H r.SH g := by
  obtain ⟨hnd, _, gf⟩ := guest_facts hs hc h
  obtain ⟨lts, file, f1, f2, f3, f4⟩ := hsh
  obtain ⟨_, _, _, _, _, _, _, _, _, h7, _⟩ := start_parts h
  obtain ⟨conf, _, _, _, _, _, g5, g6, _⟩ := start_compiled hc h
  have hload := (C32_index w.srt hs a.pubdir _ _ (layout_parts g6).1).2.2
  refine ⟨hrun, ?_, hids, ⟨rfl, rfl⟩, ?_, hkeys.symm, hT.symm, ?_⟩
  · exact hnd.map fun _ _ e => Int.ofNat.inj e
  · rw [hkeys, memberPubs, List.length_map]; rfl
  · intro x hx
    obtain ⟨i, hi, rfl⟩ := List.mem_map.1 hx
    rw [← GoMap.get?_isSome_iff, Option.isSome_iff_exists] at hi
    obtain ⟨e, he⟩ := hi
    obtain ⟨_, e1, m, _, e2, _⟩ := gf i e he
    have hsec : (programCfg st r).secret (i : Int) = e.sec := by
      show ((st.guests.get? (i : Int).toNat).map Guest.sec).getD 0 = _
      rw [Int.toNat_natCast, he]; rfl
    obtain ⟨m1, m2, m3, _⟩ := id e1
    have hm := Option.some.inj (e2.symm.trans m2)
    subst hm
    have hcurve := Loaded.curve (hload m (List.mem_of_getElem? e2))
    refine ⟨i, rfl, ?_, ⟨m.pub, by rw [hsec]; exact m3, ?_⟩, ?_⟩
    · rw [hsec]
      obtain ⟨P, hP, hlog⟩ := log_mulBase e.sec
      have := Outcome.ok.inj (hP.symm.trans m3)
      subst this
      intro hz
      refine (hlog.onCurve_iff.1 hcurve.2) ?_
      rw [ZMod.intCast_zmod_eq_zero_iff_dvd]
      exact Int.dvd_of_emod_eq_zero hz
    · have := (find_isKeyOf (ms := st.layout.members) (fun m hm => (Loaded.curve (hload m hm)).1) m3 i).2 e1
      rw [hkeys, memberPubs, List.findIdx?_map]
      rw [findMemberIndex] at this
      show st.layout.members.findIdx? (fun q => equal q.pub m.pub) = some i
      cases hf : st.layout.members.findIdx? (fun q => equal q.pub m.pub) with
      | none => rw [hf] at this; exact absurd this (by simp)
      | some k => rw [hf] at this; exact congrArg some (Int.ofNat.inj this)
    · rw [f1, loadShares] at h7
      obtain ⟨file', f5, f6, f7⟩ := C30_save_load lts (fun i s hi => (f4 i s hi).1) f3 (st.guests.map fun p => ((p.1 : Int), p.2))
      have := Outcome.ok.inj (f2.symm.trans f5)
      subst this
      by_cases hcov : ∃ i g, GoMap.get? (st.guests.map fun p => ((p.1 : Int), p.2)) i = some g ∧ lts.get? i = none
      · rw [f7 hcov] at h7; cases h7
      · push Not at hcov
        obtain ⟨lts', l1, l2⟩ := f6 (fun i ⟨g, hg⟩ => Option.ne_none_iff_exists'.1 (hcov i g hg))
        have := Outcome.ok.inj (l1.symm.trans h7)
        obtain ⟨long, hlong⟩ := Option.ne_none_iff_exists'.1 (hcov (i : Int) e ((castGuests_get? _ _ _).2 ⟨i, rfl, he⟩))
        obtain ⟨_, u1, u2⟩ := f4 _ _ hlong
        refine ⟨long, ?_, by rw [hls]; exact u1, by rw [hls]; exact u2⟩
        show st.longterms.get? (i : Int) = _
        rw [← this, l2]; exact hlong

/-- C85 (signature). Two processes are started with compiled configurations, the same keys in whatever order, the same threshold and
files of shares of the same long-term key. If both get the same request, and its runs get shares of one nonce, then all signatures
that they print for it are equal and verify under the long-term key, whatever arrives at them. -/
theorem C85_same (w w' : World K) (hs : SortContract w.srt) (hs' : SortContract w'.srt) (a a' : Cmd) (entries entries' : List Host)
    (hc : Compiled a entries) (hc' : Compiled a' entries') (ks ks' : List Pt) (hk : HoldKeys a entries ks) (hk' : HoldKeys a' entries' ks')
    (hp : ks.Perm ks') (ht : a.threshold = a'.threshold) (ls : List Nat) (hsh : SavedShares a ls) (hsh' : SavedShares a' ls)
    (st st' : Started) (h : start w a = .ok st) (h' : start w' a' = .ok st') (r r' : Rest K) (hH : r.H = r'.H) (hSH : r.SH = r'.SH)
    (h32 : ∀ b, (r.H b).length = 32) (hist hist' : List Program.Ev) (s s' : Program.Sys K)
    (hrun : Program.run (programCfg st r) (Program.init (programCfg st r)) hist = .ok s)
    (hrun' : Program.run (programCfg st' r') (Program.init (programCfg st' r')) hist' = .ok s')
    (hids : ((requests hist).map jobId).Nodup) (hids' : ((requests hist').map jobId).Nodup) (j : Job) (rs : List Nat)
    (hj : Program.Process.Signs ⟨programCfg st r, hist, s⟩ (groupOf st ls rs j) j)
    (hj' : Program.Process.Signs ⟨programCfg st' r', hist', s'⟩ (groupOf st ls rs j) j)
    (hlong : (ls.length : Int) ≤ st.threshold) (hkey : ls.headD 0 % secp256k1N ≠ 0) (hrs : rs ≠ [] ∧ (rs.length : Int) ≤ st.threshold)
    (hfew : ks.length ≤ 2 ^ 63) (hdoc : 0 ≤ j.doc ∧ j.doc < 2 ^ 256)
    (b b' : Program.JobSt) (hb : b ∈ s.jobs) (hb' : b' ∈ s'.jobs) (hbj : b.job = j) (hbj' : b'.job = j)
    (x x' : Int) (sig sig' : Schnorr.Sig) (hl : (x, some sig) ∈ b.lines) (hl' : (x', some sig') ∈ b'.lines) :
    sig = sig' ∧ Schnorr.verify r.H (.pt (timesAdd base (ls.headD 0))) j.doc sig = .ok () := by
  obtain ⟨hmem, hperm⟩ := same_members hs hs' hc hc' hk hk' hp h h'
  have hT : st.threshold = st'.threshold := by
    obtain ⟨_, _, _, _, _, _, e, _⟩ := start_parts h
    obtain ⟨_, _, _, _, _, _, e', _⟩ := start_parts h'
    rw [ht, e'] at e
    exact (Option.some.inj e).symm
  obtain ⟨conf, _, _, _, _, _, g5, g6, _⟩ := start_compiled hc h
  have hload := (C32_index w.srt hs a.pubdir _ _ (layout_parts g6).1).2.2
  have hr := C85_ready w hs a entries hc st h ls hsh r hist s hrun hids (groupOf st ls rs j) rfl rfl rfl
  have hr' := C85_ready w' hs' a' entries' hc' st' h' ls hsh' r' hist' s' hrun' hids' (groupOf st ls rs j) hmem hT rfl
  rw [← hH, ← hSH] at hr'
  refine Program.C80_same h32 ⟨hlong, hkey, hrs, ?_, ?_, hdoc⟩ _ _ hr hr' j j hj hj' b b' hb hb' hbj hbj' x x' sig sig' hl hl'
  · intro p hp
    obtain ⟨m, hm, rfl⟩ := List.mem_map.1 hp
    exact ⟨(Loaded.curve (hload m hm)).1, .inr (Loaded.curve (hload m hm)).2⟩
  · show (memberPubs st.layout.members).length ≤ _
    rw [hperm.length_eq]; exact hfew

theorem unixMilli_add (t n : Int) : unixMilli (t + n * 1000000) = unixMilli t + n := by rw [unixMilli, unixMilli]; omega

/-- C85 (start). Processes that were given the same time text (not `_`) and that read times alike make the same job of each request,
also when the request leaves the start open; the start is then 55 ms after the end of the dropping. With `_` the dropping ends three
seconds from now. -/
theorem C85_jobs (w w' : World K) (hw : w.parse = w'.parse) (a a' : Cmd) (ha : a.dropUntil = a'.dropUntil) (ha_ : a.dropUntil ≠ "_")
    (st st' : Started) (h : start w a = .ok st) (h' : start w' a' = .ok st') (q : Request) :
    runSig1 w.parse st.startAt q = runSig1 w'.parse st'.startAt q ∧
      ∀ j, q.tm = "_" → runSig1 w.parse st.startAt q = some j → j.start = st.dropUntil + 55000000 ∧ w.parse a.dropUntil = some st.dropUntil := by
  obtain ⟨_, _, _, _, _, _, _, e, e1, _⟩ := start_parts h
  obtain ⟨_, _, _, _, _, _, _, e', e1', _⟩ := start_parts h'
  rw [dropTime, if_neg ha_, orPanic_ok, Outcome.ofOption_eq_ok] at e
  rw [dropTime, if_neg (by rw [← ha]; exact ha_), orPanic_ok, Outcome.ofOption_eq_ok, ← ha, ← hw] at e'
  have hd := Option.some.inj (e.symm.trans e')
  refine ⟨by rw [e1, e1', hd, hw], fun j hq hj => ⟨?_, e⟩⟩
  rw [runSig1, Signode.startTime, if_pos hq] at hj
  cases hx : setString16 q.doc.toList with
  | none => rw [hx] at hj; cases hj
  | some d =>
    rw [hx] at hj
    have := Option.some.inj hj
    subst this
    rw [e1]; rfl

/-- C85 (start from now). -/
theorem C85_now (w : World K) (a : Cmd) (ha : a.dropUntil = "_") (st : Started) (h : start w a = .ok st) :
    st.dropUntil = w.now + 3000000000 ∧ st.startAt = w.now + 3055000000 := by
  obtain ⟨_, _, _, _, _, _, _, e, e1, _⟩ := start_parts h
  rw [dropTime, if_pos ha] at e
  have := Outcome.ok.inj e
  rw [e1, ← this, Start.startTime]
  omega

/-- C85 (messages). A message that a started process sends for a request without a start of its own to a guest of another process,
which dropped until the same time, is taken by that one's firewall, as in C79. -/
theorem C85_taken (w w' : World K) (hs : SortContract w.srt) (hs' : SortContract w'.srt) (hw : w.parse = w'.parse) (a a' : Cmd)
    (entries entries' : List Host) (hc : Compiled a entries) (hc' : Compiled a' entries') (ha : a.dropUntil = a'.dropUntil)
    (ha_ : a.dropUntil ≠ "_") (st st' : Started) (h : start w a = .ok st) (h' : start w' a' = .ok st') (r r' : Rest K)
    (hist hist' : List Program.Ev) (s s' : Program.Sys K)
    (hrun : Program.run (programCfg st r) (Program.init (programCfg st r)) hist = .ok s)
    (hrun' : Program.run (programCfg st' r') (Program.init (programCfg st' r')) hist' = .ok s')
    (hids : ((requests hist).map jobId).Nodup) (hids' : ((requests hist').map jobId).Nodup) (q : Request) (hq : q.tm = "_")
    (j j' : Job) (hj : runSig1 w.parse st.startAt q = some j) (hj' : runSig1 w'.parse st'.startAt q = some j')
    (hr : j ∈ requests hist) (hr' : j' ∈ requests hist')
    (u : Prot.Run Dto Obj (Data K)) (hu : u ∈ s.runs) (m : Message Dto) (hm : .sent m ∈ u.log) (hid : m.runId = jobId j)
    (hclock : s.node.fw.now - 5 ≤ s'.node.fw.now) (hstop : s'.node.fw.now < ((programCfg st' r').allow j').stop)
    (v : Node.Runner) (hv : v ∈ s'.node.runners) (hk : v.key = ⟨1, m.rcpt, jobId j'⟩) (hp : 2 ≤ v.pos) (hset : Program.Awake s'.node.fw)
    (hbuf : ((s'.node.fw.buffer.get? m.key).getD []).length < Firewall.bufMax)
    (hroom : (s'.node.queues (1, m.rcpt)).length < Node.rcvBufMax) :
    ∃ s3, Program.step (programCfg st' r') s' (.net m) = .ok s3 ∧
      (s3.node.fw.buffer.get? m.key = some ((s'.node.fw.buffer.get? m.key).getD [] ++ [m]) ∨
        s3.node.queues (1, m.rcpt) = s'.node.queues (1, m.rcpt) ++ [m]) := by
  obtain ⟨e1, e2⟩ := C85_jobs w w' hw a a' ha ha_ st st' h h' q
  rw [e1, hj'] at hj
  have := Option.some.inj hj
  subst this
  obtain ⟨e3, e4⟩ := e2 j' hq (e1.trans hj')
  obtain ⟨e5, e6⟩ := (C85_jobs w' w hw.symm a' a ha.symm (by rw [← ha]; exact ha_) st' st h' h q).2 j' hq hj'
  have nd : ∀ {w : World K}, SortContract w.srt → ∀ {a : Cmd} {entries : List Host}, Compiled a entries → ∀ {st : Started},
      start w a = .ok st → ∀ r : Rest K, (programCfg st r).guests.Nodup := fun hs _ _ hc _ h r =>
    (guest_facts hs hc h).1.map fun _ _ e => Int.ofNat.inj e
  refine Program.C79_taken (programCfg st r) (programCfg st' r') hist hist' s s' hrun hrun' (nd hs hc h r) (nd hs' hc' h' r') hids hids'
    j' hr hr' (unixMilli j'.start) _ _ rfl rfl ?_ u hu m hm hid hclock hstop v hv hk hp hset hbuf hroom
  show unixMilli st'.dropUntil ≤ unixMilli j'.start - 5
  rw [e5, show st'.dropUntil + 55000000 = st'.dropUntil + 55 * 1000000 from rfl, unixMilli_add]
  omega

end Verif.Props.Start
