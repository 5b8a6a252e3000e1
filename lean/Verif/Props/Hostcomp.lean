import Verif.Spec.Hostcomp
import Verif.Props.Guests

/-! C111: what the tools make of config.in, and what signode reads. -/
namespace Verif.Props.Hostcomp
open Verif Verif.Layout Verif.Hostcomp Verif.Props Verif.Spec.Hostcomp

theorem assoc_skip (pre xs : List Sexp) (h : ∀ x ∈ pre, Other x) : assoc "HOSTS" (pre ++ xs) = assoc "HOSTS" xs := by
  induction pre with
  | nil => rfl
  | cons p ps ih =>
    have hp := h p (List.mem_cons_self ..)
    have ih := ih fun x hx => h x (List.mem_cons_of_mem _ hx)
    rw [List.cons_append]
    cases p with
    | list ys =>
      cases ys with
      | nil => exact ih
      | cons y ys =>
        cases y with
        | sym n =>
          have hn : (n == "HOSTS") = false := beq_eq_false_iff_ne.2 hp
          have : assoc "HOSTS" (.list (.sym n :: ys) :: (ps ++ xs)) = assoc "HOSTS" (ps ++ xs) := by
            rw [assoc]
            simp [isSym, hn]
          rw [this, ih]
        | str s => simpa [assoc, isSym] using ih
        | num s => simpa [assoc, isSym] using ih
        | list s => simpa [assoc, isSym] using ih
    | sym n => exact hp.elim
    | str n => exact hp.elim
    | num n => exact hp.elim

theorem expansion_hosts (pre post : List Sexp) (es : List Entry) (h : ∀ x ∈ pre, Other x) :
    expansion (pre ++ hostsForm es :: post) = .ok (.list [.list (es.map fun e => e.label.sexp), .list (es.map fun e => .str e.addr),
      .list (es.map fun e => .list (e.members.map .str)), .list ((es.map fun e => e.members.map Sexp.str).flatten)]) := by
  have h1 := mapO_map car Entry.sexp (fun e => e.label.sexp) (fun _ => rfl) es
  have h2 := mapO_map cadr Entry.sexp (fun e => Sexp.str e.addr) (fun _ => rfl) es
  have h3 := mapO_map caddr Entry.sexp (fun e => Sexp.list (e.members.map .str)) (fun _ => rfl) es
  have h4 := mapO_map asList (fun e : Entry => Sexp.list (e.members.map .str)) (fun e => e.members.map .str) (fun _ => rfl) es
  have ha : assoc "HOSTS" (hostsForm es :: post) = .ok (hostsForm es) := rfl
  have hc : cdr (hostsForm es) = .ok (.list (es.map Entry.sexp)) := rfl
  unfold expansion
  rw [assoc_skip pre _ h, ha]
  simp only [Outcome.bind_ok, hc, asList, h1, h2, h3, h4, Outcome.pure_eq]

theorem encodeAll_map {α : Type} (t : String → String) (f : α → Sexp) (l : List α) :
    encodeAll t (l.map f) = l.map fun a => encode t (f a) := by
  induction l with
  | nil => rw [List.map_nil, List.map_nil, encodeAll]
  | cons a l ih => rw [List.map_cons, List.map_cons, encodeAll, ih]

theorem encode_label (t : String → String) (l : Label) (h : l ≠ .plain "T") : encode t l.sexp = .str (l.text t) := by
  cases l with
  | plain n =>
    have : n ≠ "T" := fun e => h (e ▸ rfl)
    rw [Label.sexp, encode, if_neg this, Label.text]
  | quoted s => rw [Label.sexp, encode, Label.text]

/-- C111. Let config.in hold a description of hosts, without a host that is called T; before it there may be other lists. If nothing
was in the file between the tools, then signode reads from config.out the labels, the addresses and the lists of files in the order
written, and the files of all hosts together. -/
theorem C111_compiles (symText : String → String) (es : List Entry) (pre post : List Sexp) (hpre : ∀ x ∈ pre, Other x)
    (hl : ∀ e ∈ es, e.label ≠ .plain "T") :
    compileAndLoad symText (pre ++ hostsForm es :: post) [] = .ok
      { hostlabels := es.map fun e => e.label.text symText, addrs := es.map Entry.addr, members := es.map Entry.members,
        pubfiles := (es.map Entry.members).flatten } := by
  let hs : List Host := es.map fun e => ⟨e.label.text symText, e.addr, e.members⟩
  have hflat : ((es.map fun e => e.members.map Sexp.str).flatten) = (es.map Entry.members).flatten.map Sexp.str := by
    rw [List.map_flatten, List.map_map]; rfl
  have hj : encodeAll symText [.list [.list (es.map fun e => e.label.sexp), .list (es.map fun e => .str e.addr),
      .list (es.map fun e => .list (e.members.map .str)), .list ((es.map fun e => e.members.map Sexp.str).flatten)]] =
      [Layout.expandConfig hs] := by
    have hlab : (es.map fun e => encode symText e.label.sexp) = es.map fun e => Json.str (e.label.text symText) :=
      List.map_congr_left fun e he => encode_label symText e.label (hl e he)
    rw [hflat]
    simp only [encodeAll, encode, encodeAll_map, hlab]
    simp [Layout.expandConfig, hs, Function.comp_def, List.flatMap_def]
  unfold compileAndLoad Hostcomp.expandConfig
  rw [expansion_hosts pre post es hpre]
  simp only [Outcome.bind_ok, Outcome.pure_eq, List.nil_append, translateFile, hj, loadConfigFile]
  rw [C35_compile_load]
  simp [hs, Function.comp_def]

theorem encodeAll_length (t : String → String) (l : List Sexp) : (encodeAll t l).length = l.length := by
  have := encodeAll_map t _root_.id l
  rw [List.map_id] at this
  rw [this, List.length_map]

/-- C111. Whatever config.in is: if there was anything in the file between the tools, because it was made before, then signode does not
start with the outcome; when the first tool has made its list, signode panics. -/
theorem C111_twice (symText : String → String) (infile tmp : List Sexp) (h : tmp ≠ []) :
    (∀ c, compileAndLoad symText infile tmp ≠ .ok c) ∧
    ∀ e, expansion infile = .ok e → compileAndLoad symText infile tmp = .panic := by
  have key : ∀ e, expansion infile = .ok e → compileAndLoad symText infile tmp = .panic := by
    intro e he
    unfold compileAndLoad Hostcomp.expandConfig
    simp only [he, Outcome.bind_ok, Outcome.pure_eq, translateFile]
    have hlen := encodeAll_length symText (tmp ++ [e])
    generalize encodeAll symText (tmp ++ [e]) = l at hlen
    rw [List.length_append, List.length_singleton] at hlen
    have := List.length_pos_iff.2 h
    match l, hlen with
    | [], _ => rfl
    | [_], hlen => rw [List.length_singleton] at hlen; omega
    | _ :: _ :: _, _ => rfl
  refine ⟨fun c hc => ?_, key⟩
  cases he : expansion infile with
  | ok e => rw [key e he] at hc; cases hc
  | err => unfold compileAndLoad Hostcomp.expandConfig at hc; rw [he] at hc; cases hc
  | panic => unfold compileAndLoad Hostcomp.expandConfig at hc; rw [he] at hc; cases hc

/-- C111. A host called T makes signode panic, though labels have no meaning: the label becomes the truth value. -/
theorem C111_label (symText : String → String) (addr : String) (members : List String) :
    compileAndLoad symText [hostsForm [⟨.plain "T", addr, members⟩]] [] = .panic := by
  unfold compileAndLoad Hostcomp.expandConfig
  rw [show [hostsForm [⟨.plain "T", addr, members⟩]] = [] ++ hostsForm [⟨.plain "T", addr, members⟩] :: [] from rfl,
    expansion_hosts [] [] _ (fun _ hx => by cases hx)]
  simp only [Outcome.bind_ok, Outcome.pure_eq, List.nil_append, translateFile, encodeAll, encode, loadConfigFile, List.map_cons,
    List.map_nil, Label.sexp, if_true]
  rfl

/-! The example of /repo/siggy/doc/config.txt: three hosts with a member each; before it an empty list and another list. -/

/-- The names of symbols in lower case, for the example. -/
def lower (s : String) : String := if s = "H1" then "h1" else if s = "H2" then "h2" else if s = "H3" then "h3" else s

/-- The hosts. -/
def exEntries : List Entry :=
  [⟨.plain "H1", "192.168.201.1:14001", ["public_1"]⟩, ⟨.plain "H2", "192.168.201.2:14001", ["public_2"]⟩,
   ⟨.quoted "h3", "192.168.201.3:14001", ["public_3"]⟩]

/-- config.in. -/
def exFile : List Sexp := [.list [], .list [.sym "NOTES", .str "x"], hostsForm exEntries]

example : compileAndLoad lower exFile [] = .ok
    ⟨["h1", "h2", "h3"], ["192.168.201.1:14001", "192.168.201.2:14001", "192.168.201.3:14001"],
     [["public_1"], ["public_2"], ["public_3"]], ["public_1", "public_2", "public_3"]⟩ := by
  have := C111_compiles lower exEntries [.list [], .list [.sym "NOTES", .str "x"]] [] (by
    intro x hx
    simp only [List.mem_cons, List.not_mem_nil, or_false] at hx
    rcases hx with rfl | rfl
    · trivial
    · exact (by decide : ("NOTES" : String) ≠ "HOSTS")) (by
    intro e he
    simp only [exEntries, List.mem_cons, List.not_mem_nil, or_false] at he
    rcases he with rfl | rfl | rfl <;> (intro h; first | cases h | (injection h with h; exact absurd h (by decide))))
  exact this

/-- The tools are run again on the same files. -/
example : ∃ t, Hostcomp.expandConfig exFile [] = .ok t ∧ t ≠ [] ∧ compileAndLoad lower exFile t = .panic := by
  have he := expansion_hosts [.list [], .list [.sym "NOTES", .str "x"]] [] exEntries (by
    intro x hx
    simp only [List.mem_cons, List.not_mem_nil, or_false] at hx
    rcases hx with rfl | rfl
    · trivial
    · exact (by decide : ("NOTES" : String) ≠ "HOSTS"))
  refine ⟨_, rfl, by simp, (C111_twice lower exFile _ (by simp)).2 _ he⟩

end Verif.Props.Hostcomp
