import Verif.Model.Scan
import Verif.Spec.Scan
import Verif.Props.Signode

/-! C89: standard input as text. -/
namespace Verif.Props.Scan
open Verif.Scan Verif.Signode Verif.Spec.Scan

theorem isSpace_iff (c : Char) : isSpace c = true ↔ c ∈ whiteSpace := by
  have key : ∀ d ∈ whiteSpace, c = d ↔ c.toNat = d.toNat := fun d _ =>
    ⟨fun h => by rw [h], fun h => Char.ext (UInt32.toNat_inj.1 h)⟩
  have h1 : c ∈ whiteSpace ↔ c.toNat ∈ whiteSpace.map Char.toNat := by
    constructor
    · exact fun h => List.mem_map_of_mem h
    · intro h
      obtain ⟨d, hd, e⟩ := List.mem_map.1 h
      rw [(key d hd).2 e.symm]; exact hd
  rw [h1, show whiteSpace.map Char.toNat = [9, 10, 11, 12, 13, 32, 0x85, 0xa0, 0x1680, 0x2000, 0x2001, 0x2002, 0x2003, 0x2004, 0x2005, 0x2006,
    0x2007, 0x2008, 0x2009, 0x200a, 0x2028, 0x2029, 0x202f, 0x205f, 0x3000] from by decide +kernel, isSpace]
  simp only [Bool.or_eq_true, decide_eq_true_eq, List.mem_cons, List.not_mem_nil, or_false]
  omega

theorem not_space {c : Char} (h : c ∉ whiteSpace) : isSpace c = false := by
  rw [← Bool.not_eq_true, isSpace_iff]; exact h

theorem utf8Len_eq (c : Char) : utf8Len c = c.utf8Size := by
  have e : ∀ n : Nat, ∀ h : n < 4294967296, c.val ≤ UInt32.ofNatLT n h ↔ c.toNat ≤ n := fun n h => by
    rw [UInt32.le_iff_toNat_le, UInt32.toNat_ofNatLT]; rfl
  rw [utf8Len, Char.utf8Size]
  simp only [e]
  split_ifs <;> omega

theorem size_eq (l : List Char) : size l = (String.ofList l).utf8ByteSize := by
  induction l with
  | nil => rfl
  | cons c l ih =>
    rw [size, List.map_cons, List.sum_cons, ← size, ih, utf8Len_eq, String.ofList_cons]
    simp

theorem size_word (w : String) : size w.toList = w.utf8ByteSize := by rw [size_eq, String.ofList_toList]

theorem scanFrom_word (w rest cur : List Char) (h : ∀ c ∈ w, c ∉ whiteSpace) : scanFrom (w ++ rest) cur = scanFrom rest (cur ++ w) := by
  induction w generalizing cur with
  | nil => rw [List.nil_append, List.append_nil]
  | cons c w ih =>
    rw [List.cons_append, scanFrom, if_neg (by rw [not_space (h c (List.mem_cons_self ..))]; simp),
      ih _ fun c hc => h c (List.mem_cons_of_mem _ hc), List.append_assoc]
    rfl

theorem scanFrom_blank (sp rest : List Char) (h : Blank sp) : scanFrom (sp ++ rest) [] = scanFrom rest [] := by
  induction sp with
  | nil => rfl
  | cons c sp ih =>
    rw [List.cons_append, scanFrom, if_pos ((isSpace_iff c).2 (h c (List.mem_cons_self ..))), if_pos rfl,
      ih fun c hc => h c (List.mem_cons_of_mem _ hc)]

theorem toList_ne {w : String} (h : w ≠ "") : w.toList ≠ [] := by
  intro e
  apply h
  rw [← String.ofList_toList (s := w), e]

theorem short_iff (w : String) : size w.toList < maxSize ↔ Short w := by rw [size_word, Short]; exact Iff.rfl

instance (w : String) : Decidable (Short w) := by unfold Short; infer_instance

/-- What comes out for the words of a text. -/
theorem scan_separated {text : List Char} {ws : List String} (h : Separated text ws) :
    scan text = (ws.takeWhile fun w => decide (Short w), !ws.all fun w => decide (Short w)) := by
  induction h with
  | @blank sp h =>
    have := scanFrom_blank sp [] h
    rw [List.append_nil] at this
    rw [scan, this]; rfl
  | @last sp w h hw =>
    rw [scan, scanFrom_blank _ _ h]
    have h2 := scanFrom_word w.toList [] [] hw.2
    rw [List.append_nil] at h2
    rw [h2, List.nil_append, scanFrom, if_neg (toList_ne hw.1), String.ofList_toList]
    by_cases hs : Short w
    · rw [if_pos ((short_iff w).2 hs)]; simp [hs]
    · rw [if_neg (fun x => hs ((short_iff w).1 x))]; simp [hs]
  | @next sp w c rest ws h hw hc hr ih =>
    rw [scan, scanFrom_blank _ _ h, scanFrom_word w.toList _ [] hw.2, List.nil_append, scanFrom, if_pos ((isSpace_iff c).2 hc),
      if_neg (toList_ne hw.1), String.ofList_toList]
    by_cases hs : Short w
    · rw [if_pos ((short_iff w).2 hs)]
      rw [scan] at ih
      dsimp only
      rw [ih]
      simp [hs]
    · rw [if_neg (fun x => hs ((short_iff w).1 x))]; simp [hs]

theorem blank_cons {c : Char} (hc : c ∈ whiteSpace) {text : List Char} {ws : List String} (h : Separated text ws) : Separated (c :: text) ws := by
  have hb : ∀ {sp : List Char}, Blank sp → Blank (c :: sp) := fun h x hx => by
    rcases List.mem_cons.1 hx with rfl | hx
    · exact hc
    · exact h x hx
  cases h with
  | blank h => exact .blank (hb h)
  | last h hw => exact .last (hb h) hw
  | next h hw hd hr => exact .next (hb h) hw hd hr

/-- Every text has words. -/
theorem exists_separated (text : List Char) : ∃ ws, Separated text ws := by
  have key : ∀ (text cur : List Char), (∀ c ∈ cur, c ∉ whiteSpace) → ∃ ws, Separated (cur ++ text) ws := by
    intro text
    induction text with
    | nil =>
      intro cur hcur
      rw [List.append_nil]
      by_cases hn : cur = []
      · exact ⟨[], by rw [hn]; exact .blank (fun c hc => absurd hc List.not_mem_nil)⟩
      · refine ⟨[String.ofList cur], ?_⟩
        have hw : Word (String.ofList cur) := ⟨fun e => hn (by
          have := congrArg String.toList e
          rw [String.toList_ofList] at this; exact this), by rw [String.toList_ofList]; exact hcur⟩
        have := Separated.last (sp := []) (fun c hc => absurd hc List.not_mem_nil) hw
        rw [String.toList_ofList] at this
        exact this
    | cons c text ih =>
      intro cur hcur
      by_cases hc : c ∈ whiteSpace
      · obtain ⟨ws, h⟩ := ih [] (fun c hc => absurd hc List.not_mem_nil)
        by_cases hn : cur = []
        · exact ⟨ws, by rw [hn]; exact blank_cons hc h⟩
        · refine ⟨String.ofList cur :: ws, ?_⟩
          have hw : Word (String.ofList cur) := ⟨fun e => hn (by
            have := congrArg String.toList e
            rw [String.toList_ofList] at this; exact this), by rw [String.toList_ofList]; exact hcur⟩
          have := Separated.next (sp := []) (fun c hc => absurd hc List.not_mem_nil) hw hc h
          rw [String.toList_ofList] at this
          exact this
      · obtain ⟨ws, h⟩ := ih (cur ++ [c]) (by
          intro x hx
          rcases List.mem_append.1 hx with hx | hx
          · exact hcur x hx
          · rw [List.mem_singleton.1 hx]; exact hc)
        exact ⟨ws, by rw [List.append_assoc] at h; exact h⟩
  exact key text [] (fun c hc => absurd hc List.not_mem_nil)

theorem takeWhile_short {ws : List String} (h : ∀ w ∈ ws, Short w) : ws.takeWhile (fun w => decide (Short w)) = ws := by
  have := List.takeWhile_append_of_pos (p := fun w => decide (Short w)) (l₁ := ws) (l₂ := []) fun a ha => decide_eq_true (h a ha)
  rwa [List.append_nil, List.takeWhile_nil, List.append_nil] at this

/-- C89 (words). Without an error, the scanner delivers exactly the words of the text, in order; and if no word has more than 65535 bytes
there is no error. -/
theorem C89_words (text : List Char) (ws : List String) : scan text = (ws, false) ↔ Separated text ws ∧ ∀ w ∈ ws, Short w := by
  constructor
  · intro h
    obtain ⟨us, hu⟩ := exists_separated text
    rw [scan_separated hu, Prod.mk.injEq] at h
    obtain ⟨h1, h2⟩ := h
    have h3 : ∀ w ∈ us, Short w := by simpa using h2
    rw [takeWhile_short h3] at h1
    rw [← h1]
    exact ⟨hu, h3⟩
  · rintro ⟨h1, h2⟩
    rw [scan_separated h1, takeWhile_short h2, Prod.mk.injEq]
    exact ⟨rfl, by simpa using h2⟩

/-- C89 (long words). A word of more than 65535 bytes ends the input: what comes before is delivered, nothing that comes after. -/
theorem C89_long (text : List Char) (us vs : List String) (w : String) (h : Separated text (us ++ w :: vs)) (hu : ∀ u ∈ us, Short u)
    (hw : ¬ Short w) : scan text = (us, true) := by
  rw [scan_separated h, Prod.mk.injEq]
  constructor
  · rw [List.takeWhile_append_of_pos (fun a ha => decide_eq_true (hu a ha)), List.takeWhile_cons_of_neg (by simpa using hw), List.append_nil]
  · simp [hw]

theorem word_split {w w' : List Char} {c c' : Char} {r r' : List Char} (h : ∀ x ∈ w, x ∉ whiteSpace) (h' : ∀ x ∈ w', x ∉ whiteSpace)
    (hc : c ∈ whiteSpace) (hc' : c' ∈ whiteSpace) (e : w ++ c :: r = w' ++ c' :: r') : w = w' ∧ r = r' := by
  induction w generalizing w' with
  | nil =>
    cases w' with
    | nil => exact ⟨rfl, (List.cons.inj e).2⟩
    | cons d w' => exact absurd ((List.cons.inj e).1 ▸ hc) (h' d (List.mem_cons_self ..))
  | cons d w ih =>
    cases w' with
    | nil => exact absurd ((List.cons.inj e).1 ▸ hc') (h d (List.mem_cons_self ..))
    | cons d' w' =>
      obtain ⟨e1, e2⟩ := List.cons.inj e
      obtain ⟨h1, h2⟩ := ih (fun x hx => h x (List.mem_cons_of_mem _ hx)) (fun x hx => h' x (List.mem_cons_of_mem _ hx)) e2
      exact ⟨by rw [e1, h1], h2⟩

theorem blank_split {sp sp' : List Char} {w w' : List Char} (h : Blank sp) (h' : Blank sp') (hw : ∀ c, w.head? = some c → c ∉ whiteSpace)
    (hw' : ∀ c, w'.head? = some c → c ∉ whiteSpace) (e : sp ++ w = sp' ++ w') : w = w' := by
  induction sp generalizing sp' with
  | nil =>
    cases sp' with
    | nil => exact e
    | cons d sp' => exact absurd (h' d (List.mem_cons_self ..)) (hw d (by rw [List.nil_append] at e; rw [e]; rfl))
  | cons d sp ih =>
    cases sp' with
    | nil => exact absurd (h d (List.mem_cons_self ..)) (hw' d (by rw [List.nil_append] at e; rw [← e]; rfl))
    | cons d' sp' =>
      exact ih (fun x hx => h x (List.mem_cons_of_mem _ hx)) (fun x hx => h' x (List.mem_cons_of_mem _ hx)) (List.cons.inj e).2

theorem word_head {w : String} (h : Word w) (rest : List Char) : ∀ c, (w.toList ++ rest).head? = some c → c ∉ whiteSpace := by
  intro c hc
  cases hl : w.toList with
  | nil => exact absurd hl (toList_ne h.1)
  | cons d l =>
    rw [hl, List.cons_append, List.head?_cons, Option.some.injEq] at hc
    exact hc ▸ h.2 d (by rw [hl]; exact List.mem_cons_self ..)

/-- A text without words is not one with a word. -/
theorem blank_word {sp sp' rest : List Char} {w : String} (h : Blank sp) (hw : Word w) (e : sp = sp' ++ (w.toList ++ rest)) : False := by
  cases hl : w.toList with
  | nil => exact toList_ne hw.1 hl
  | cons d l => exact hw.2 d (by rw [hl]; exact List.mem_cons_self ..) (h d (by rw [e, hl]; simp))

/-- A word that ends the text is not followed by white space. -/
theorem last_next {w w' : List Char} {c : Char} {rest : List Char} (h : ∀ x ∈ w, x ∉ whiteSpace) (hc : c ∈ whiteSpace)
    (e : w = w' ++ c :: rest) : False := h c (by rw [e]; simp) hc

theorem separated_unique {text text' : List Char} {ws ws' : List String} (h : Separated text ws) (h' : Separated text' ws') (e : text = text') :
    ws = ws' := by
  induction h generalizing text' ws' with
  | @blank sp h =>
    cases h' with
    | blank _ => rfl
    | @last _ w h' hw => exact (blank_word (sp' := _) (rest := []) h hw (by rw [e, List.append_nil])).elim
    | next h' hw hc _ => exact (blank_word h hw e).elim
  | @last sp w h hw =>
    cases h' with
    | blank h' => exact (blank_word (sp' := sp) (rest := []) h' hw (by rw [← e, List.append_nil])).elim
    | @last sp' w' h' hw' =>
      have := blank_split h h' (by simpa using word_head hw []) (by simpa using word_head hw' []) e
      rw [String.toList_inj.1 this]
    | next h' hw' hc _ =>
      have := blank_split h h' (by simpa using word_head hw []) (word_head hw' _) e
      exact (last_next hw.2 hc this).elim
  | @next sp w c rest ws h hw hc _ ih =>
    cases h' with
    | blank h' => exact (blank_word h' hw e.symm).elim
    | @last sp' w' h' hw' =>
      have := blank_split h h' (word_head hw _) (by simpa using word_head hw' []) e
      exact (last_next hw'.2 hc this.symm).elim
    | next h' hw' hc' hr' =>
      have := blank_split h h' (word_head hw _) (word_head hw' _) e
      obtain ⟨e1, e2⟩ := word_split hw.2 hw'.2 hc hc' this
      rw [String.toList_inj.1 e1, ih hr' e2]

/-- C89 (no other case). Every text consists of words in exactly one way. -/
theorem C89_unique (text : List Char) : ∃! ws, Separated text ws := by
  obtain ⟨ws, h⟩ := exists_separated text
  exact ⟨ws, h, fun ws' h' => (separated_unique h h' rfl).symm⟩

/-- A line of input. -/
def line (r : Request) : List Char := (r.nmspc ++ " " ++ r.tm ++ " " ++ r.doc ++ "\n").toList

/-- C89 (requests). A request per line, of three words each, starts one goroutine for each of them, in order. -/
theorem C89_requests (rs : List Request) (h : ∀ r ∈ rs, ∀ w ∈ [r.nmspc, r.tm, r.doc], Word w ∧ Short w) :
    readRequests (rs.flatMap line) = rs ∧ (scan (rs.flatMap line)).2 = false := by
  have hb : Blank [] := fun c hc => absurd hc List.not_mem_nil
  have sep : Separated (rs.flatMap line) (rs.flatMap fun r => [r.nmspc, r.tm, r.doc]) := by
    induction rs with
    | nil => exact .blank hb
    | cons r rs ih =>
      have h1 := h r (List.mem_cons_self ..)
      have := Separated.next hb (h1 r.nmspc (by simp)).1 (show ' ' ∈ whiteSpace by decide)
        (Separated.next hb (h1 r.tm (by simp)).1 (show ' ' ∈ whiteSpace by decide)
          (Separated.next hb (h1 r.doc (by simp)).1 (show '\n' ∈ whiteSpace by decide) (ih fun r hr => h r (List.mem_cons_of_mem _ hr))))
      rw [List.flatMap_cons, List.flatMap_cons, line]
      simpa using this
  have hs := (C89_words _ _).2 ⟨sep, fun w hw => by
    obtain ⟨r, hr, hw⟩ := List.mem_flatMap.1 hw
    exact (h r hr w hw).2⟩
  rw [readRequests, hs]
  refine ⟨?_, rfl⟩
  clear hs sep h
  induction rs with
  | nil => rfl
  | cons r rs ih =>
    rw [List.flatMap_cons]
    show runSigs (r.nmspc :: r.tm :: r.doc :: _) = _
    rw [runSigs]
    exact congrArg _ ih

/-- C89 (nothing is taken back). What has been read up to some white space is delivered whatever follows. -/
theorem C89_stream (a b : List Char) (c : Char) (hc : c ∈ whiteSpace) (he : (scan a).2 = false) :
    scan (a ++ c :: b) = ((scan a).1 ++ (scan b).1, (scan b).2) := by
  obtain ⟨ws, h⟩ := exists_separated a
  obtain ⟨us, hu⟩ := exists_separated b
  have key : Separated (a ++ c :: b) (ws ++ us) := by
    clear he
    induction h with
    | @blank sp h =>
      induction sp with
      | nil => exact blank_cons hc hu
      | cons d sp ih => exact blank_cons (h d (List.mem_cons_self ..)) (ih fun x hx => h x (List.mem_cons_of_mem _ hx))
    | last h hw => rw [List.append_assoc]; exact .next h hw hc hu
    | next h hw hd _ ih =>
      rw [List.append_assoc, List.append_assoc]
      exact .next h hw hd ih
  rw [scan_separated h] at he
  have hs : ∀ w ∈ ws, Short w := by simpa using he
  rw [scan_separated key, scan_separated h, scan_separated hu, takeWhile_short hs, List.takeWhile_append_of_pos (fun a ha => decide_eq_true (hs a ha)),
    Prod.mk.injEq]
  refine ⟨rfl, ?_⟩
  have : (ws.all fun w => decide (Short w)) = true := by simpa using hs
  rw [List.all_append, this, Bool.true_and]

/-- A case of C89: two requests, with more white space than needed, and half of a third. -/
example : readRequests "ns 2026-01-01T00:00:00Z a\r\n\n ns\t2026-01-01T00:00:01Z\u2003b\nns 2026".toList =
    [⟨"ns", "2026-01-01T00:00:00Z", "a"⟩, ⟨"ns", "2026-01-01T00:00:01Z", "b"⟩] := by decide +kernel

/-- A word of `n` letters, and a request after it. -/
def longText (n : Nat) : List Char := "ns ".toList ++ (List.replicate n 'x' ++ ' ' :: "ns 2026-01-01T00:00:00Z a\n".toList)

/-- A case of C89 for long words: the request after it is not read. -/
example (n : Nat) (hn : 65536 ≤ n) : scan (longText n) = (["ns"], true) ∧ readRequests (longText n) = [] := by
  have hb : Blank [] := fun c hc => absurd hc List.not_mem_nil
  have hs : ' ' ∈ whiteSpace := by decide
  have hw : Word "ns" := by unfold Word; decide
  have hx : Word (String.ofList (List.replicate n 'x')) := ⟨fun e => by
    have := congrArg (fun s => s.toList.length) e
    simp only [String.toList_ofList, List.length_replicate] at this
    have h0 : n = 0 := this
    omega, by
    rw [String.toList_ofList]
    intro c hc
    rw [List.eq_of_mem_replicate hc]; decide⟩
  obtain ⟨ws, h⟩ := exists_separated "ns 2026-01-01T00:00:00Z a\n".toList
  have h1 := Separated.next hb hw hs (Separated.next hb hx hs h)
  rw [String.toList_ofList (l := List.replicate n 'x')] at h1
  have h2 := C89_long (longText n) ["ns"] ws (String.ofList (List.replicate n 'x')) h1 (by unfold Short; decide) (by
    rw [Short, ← size_eq, size, List.map_replicate, List.sum_replicate, show utf8Len 'x' = 1 from rfl, smul_eq_mul]; omega)
  exact ⟨h2, by rw [readRequests, h2]; rfl⟩

end Verif.Props.Scan
