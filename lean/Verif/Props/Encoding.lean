import Verif.Model.Encoding
import Verif.Props.Point
import Verif.Props.Scalar

/-! C94: scalars and points on streams. C95: the `New` of the suite. -/
namespace Verif.Props.Encoding
open Verif.Point Verif.Encoding Verif.Props

/-- What the reader gives before its next error. -/
def available : Reader → List UInt8
  | [] => []
  | (b, true) :: _ => b
  | (b, false) :: r => b ++ available r

/-- A full read succeeds exactly if there is enough before the next error, and takes just that. -/
theorem readFull_spec (n : Nat) (hn : 0 < n) (r : Reader) :
    (n ≤ (available r).length → ∃ r' more, readFull n r = (((available r).take n, true), r') ∧ available r' = (available r).drop n ++ more) ∧
    ((available r).length < n → ∃ r', readFull n r = ((available r, false), r')) := by
  induction r generalizing n with
  | nil =>
    refine ⟨fun h => ?_, fun _ => ⟨[], rfl⟩⟩
    rw [available, List.length_nil] at h; omega
  | cons x r ih =>
    obtain ⟨b, e⟩ := x
    rw [readFull]
    by_cases h1 : n < b.length
    · rw [if_pos h1]
      have hp : ∃ more, available ((b, e) :: r) = b ++ more := by
        cases e with
        | true => exact ⟨[], by rw [available, List.append_nil]⟩
        | false => exact ⟨_, rfl⟩
      obtain ⟨more, hp⟩ := hp
      refine ⟨fun _ => ⟨_, [], by rw [hp, List.take_append_of_le_length (by omega)], ?_⟩, fun h => ?_⟩
      · rw [List.append_nil, hp, List.drop_append_of_le_length (by omega)]
        cases e with
        | true => rw [available] at hp ⊢; rw [show more = [] by simpa using hp, List.append_nil]
        | false => rw [available] at hp ⊢; rw [List.append_cancel_left hp]
      · rw [hp, List.length_append] at h; omega
    · rw [if_neg h1]
      by_cases h2 : n = b.length
      · rw [if_pos h2]
        cases e with
        | true =>
          rw [available]
          refine ⟨fun _ => ⟨r, available r, by rw [h2, List.take_length], by rw [h2, List.drop_length, List.nil_append]⟩, fun h => by omega⟩
        | false =>
          rw [available]
          refine ⟨fun _ => ⟨r, [], by rw [h2, List.take_left], by rw [h2, List.drop_left, List.append_nil]⟩, fun h => ?_⟩
          rw [List.length_append] at h; omega
      · rw [if_neg h2]
        cases e with
        | true =>
          rw [if_pos rfl, available]
          exact ⟨fun h => by omega, fun _ => ⟨r, rfl⟩⟩
        | false =>
          rw [if_neg (by decide), available]
          obtain ⟨i1, i2⟩ := ih (n - b.length) (by omega)
          refine ⟨fun h => ?_, fun h => ?_⟩
          · rw [List.length_append] at h
            obtain ⟨r', more, e1, e2⟩ := i1 (by omega)
            refine ⟨r', more, ?_, ?_⟩
            · rw [e1, List.take_append, List.take_of_length_le (l := b) (by omega)]
            · rw [e2, List.drop_append, List.drop_of_length_le (l := b) (by omega), List.nil_append]
          · rw [List.length_append] at h
            obtain ⟨r', e1⟩ := i2 (by omega)
            exact ⟨r', by rw [e1]⟩

/-- C94 (reading). `UnmarshalFrom` takes the next 33 bytes for a point and the next 32 for a scalar, in whatever pieces they come, decodes
them as `UnmarshalBinary` does and returns their number; if an error comes before, it returns an error. -/
theorem C94_reads (r : Reader) :
    (33 ≤ (available r).length → (pointFrom r).n = 33 ∧ (pointFrom r).value = unmarshalBinary ((available r).take 33) ∧
      ∃ more, available (pointFrom r).rest = (available r).drop 33 ++ more) ∧
    ((available r).length < 33 → (pointFrom r).n = 0 ∧ (pointFrom r).value = .err) ∧
    (32 ≤ (available r).length → (scalarFrom r).n = 32 ∧ (scalarFrom r).value = Scalar.unmarshalBinary ((available r).take 32) ∧
      ∃ more, available (scalarFrom r).rest = (available r).drop 32 ++ more) ∧
    ((available r).length < 32 → (scalarFrom r).n = (available r).length ∧ (scalarFrom r).value = .err) := by
  obtain ⟨p1, p2⟩ := readFull_spec 33 (by decide) r
  obtain ⟨s1, s2⟩ := readFull_spec 32 (by decide) r
  refine ⟨fun h => ?_, fun h => ?_, fun h => ?_, fun h => ?_⟩
  · obtain ⟨r', more, e1, e2⟩ := p1 h
    rw [pointFrom, e1]
    exact ⟨rfl, rfl, more, e2⟩
  · obtain ⟨r', e1⟩ := p2 h
    rw [pointFrom, e1]
    exact ⟨rfl, rfl⟩
  · obtain ⟨r', more, e1, e2⟩ := s1 h
    rw [scalarFrom, Scalar.marshalSize, e1]
    exact ⟨rfl, rfl, more, e2⟩
  · obtain ⟨r', e1⟩ := s2 h
    rw [scalarFrom, Scalar.marshalSize, e1]
    exact ⟨rfl, rfl⟩

theorem pointTo_ok {w : Writer} {P : Pt} {bs : List UInt8} (h : marshalBinary P = .ok bs) : pointTo w P = .ok (write w bs) := by
  unfold pointTo; rw [h]

theorem pointTo_err {w : Writer} {P : Pt} (h : marshalBinary P = .err) : pointTo w P = .ok (w, 0, false) := by
  unfold pointTo; rw [h]

theorem scalarTo_ok {w : Writer} {s : Int} {bs : List UInt8} (h : Scalar.marshalBinary s = .ok bs) : scalarTo w s = .ok (write w bs) := by
  unfold scalarTo; rw [h]

theorem write_all (d bs : List UInt8) : write ⟨d, none⟩ bs = (⟨d ++ bs, none⟩, bs.length, true) := rfl

theorem marshalBinary_length {P : Pt} {bs : List UInt8} (h : marshalBinary P = .ok bs) : bs.length = 33 := by
  obtain ⟨_, xb, h1, h2⟩ := (marshalBinary_ok_iff P bs).1 h
  obtain ⟨xb', h3, h4, _⟩ := Field.bytes_spec P.X
  rw [h1] at h3
  cases h3
  rw [h2, List.length_append, h4]; rfl

/-- Something to put on a stream: a scalar or a point. -/
inductive Item where
  | scalar (s : Int)
  | point (P : Pt)

/-- It is in the range of its type: a reduced scalar, a reduced point of the curve. -/
def Item.Proper : Item → Prop
  | .scalar s => 0 ≤ s ∧ s < Scalar.GroupOrder
  | .point P => Reduced P.X P.Y ∧ OnCurve P.X P.Y

/-- Write the items one after the other, to a writer that takes everything. -/
def putAll : List Item → Writer → Outcome Writer
  | [], w => .ok w
  | .scalar s :: l, w => scalarTo w s >>= fun x => if x.2.2 then putAll l x.1 else .err
  | .point P :: l, w => pointTo w P >>= fun x => if x.2.2 then putAll l x.1 else .err

/-- Read as many items of the same kinds. -/
def getAll : List Item → Reader → Outcome (List Item × Reader)
  | [], r => .ok ([], r)
  | .scalar _ :: l, r => (scalarFrom r).value >>= fun s => getAll l (scalarFrom r).rest >>= fun x => .ok (.scalar s :: x.1, x.2)
  | .point _ :: l, r => (pointFrom r).value >>= fun P => getAll l (pointFrom r).rest >>= fun x => .ok (.point P :: x.1, x.2)

/-- The length of the encoding of an item. -/
def Item.size : Item → Nat
  | .scalar _ => 32
  | .point _ => 33

/-- C94 (round trip). Any sequence of scalars and of points of the curve can be written to a stream, in 32 bytes for each scalar and 33 for
each point, and is read back from a stream that begins with these bytes, in whatever pieces they come and whatever follows. -/
theorem C94_roundtrip (l : List Item) (hl : ∀ x ∈ l, x.Proper) (d : List UInt8) :
    ∃ bs, putAll l ⟨d, none⟩ = .ok ⟨d ++ bs, none⟩ ∧ bs.length = (l.map Item.size).sum ∧
      ∀ (r : Reader) (tail : List UInt8), available r = bs ++ tail → ∃ r' more, getAll l r = .ok (l, r') ∧ available r' = tail ++ more := by
  induction l generalizing d with
  | nil => exact ⟨[], by rw [putAll, List.append_nil], rfl, fun r tail h => ⟨r, [], rfl, by rw [h, List.append_nil]; rfl⟩⟩
  | cons x l ih =>
    have hx := hl x (List.mem_cons_self ..)
    cases x with
    | scalar s =>
      obtain ⟨b, h1, h2, _, _, h3⟩ := C03_roundtrip s
      obtain ⟨bs, i1, i2, i3⟩ := ih (fun x hx => hl x (List.mem_cons_of_mem _ hx)) (d ++ b)
      refine ⟨b ++ bs, ?_, ?_, fun r tail hr => ?_⟩
      · rw [putAll, scalarTo_ok h1, Outcome.bind_ok, write_all, if_pos rfl, ← List.append_assoc]
        exact i1
      · rw [List.length_append, List.map_cons, List.sum_cons, i2, h2]; rfl
      · rw [List.append_assoc] at hr
        obtain ⟨g1, g2, more, g3⟩ := (C94_reads r).2.2.1 (by rw [hr, List.length_append]; omega)
        rw [hr, ← h2, List.take_left, h3 hx] at g2
        rw [hr, ← h2, List.drop_left, List.append_assoc] at g3
        obtain ⟨r', more', k1, k2⟩ := i3 _ _ g3
        refine ⟨r', more ++ more', ?_, by rw [k2, List.append_assoc]⟩
        rw [getAll, g2, Outcome.bind_ok, k1]; rfl
    | point P =>
      obtain ⟨b, h1, h2, h3⟩ := C07_roundtrip P hx.1 hx.2
      obtain ⟨bs, i1, i2, i3⟩ := ih (fun x hx => hl x (List.mem_cons_of_mem _ hx)) (d ++ b)
      refine ⟨b ++ bs, ?_, ?_, fun r tail hr => ?_⟩
      · rw [putAll, pointTo_ok h1, Outcome.bind_ok, write_all, if_pos rfl, ← List.append_assoc]
        exact i1
      · rw [List.length_append, List.map_cons, List.sum_cons, i2, h2]; rfl
      · rw [List.append_assoc] at hr
        obtain ⟨g1, g2, more, g3⟩ := (C94_reads r).1 (by rw [hr, List.length_append]; omega)
        rw [hr, ← h2, List.take_left, h3] at g2
        rw [hr, ← h2, List.drop_left, List.append_assoc] at g3
        obtain ⟨r', more', k1, k2⟩ := i3 _ _ g3
        refine ⟨r', more ++ more', ?_, by rw [k2, List.append_assoc]⟩
        rw [getAll, g2, Outcome.bind_ok, k1]; rfl

/-- C94 (writing). `MarshalTo` of a scalar writes its encoding, as far as the writer takes it; that of a point writes nothing and returns
an error if the point is not on the curve. The number returned is that of the bytes written, and there is an error exactly if these are
not all. -/
theorem C94_writes (w : Writer) (s : Int) (P : Pt) :
    (∃ bs w' n, Scalar.marshalBinary s = .ok bs ∧ scalarTo w s = .ok (w', n, decide (n = 32)) ∧ w'.data = w.data ++ bs.take n ∧ n ≤ 32 ∧
      (n < 32 → w.room = some n)) ∧
    (OnCurve P.X P.Y → ∃ bs w' n, marshalBinary P = .ok bs ∧ pointTo w P = .ok (w', n, decide (n = 33)) ∧ w'.data = w.data ++ bs.take n ∧
      n ≤ 33 ∧ (n < 33 → w.room = some n)) ∧
    (¬ OnCurve P.X P.Y → pointTo w P = .ok (w, 0, false)) := by
  have key : ∀ bs : List UInt8, ∃ w' n, write w bs = (w', n, decide (n = bs.length)) ∧ w'.data = w.data ++ bs.take n ∧ n ≤ bs.length ∧
      (n < bs.length → w.room = some n) := by
    intro bs
    rw [write]
    cases hr : w.room with
    | none => exact ⟨_, bs.length, by dsimp only; rw [decide_eq_true rfl], by rw [List.take_length], Nat.le_refl _, fun h => absurd h (Nat.lt_irrefl _)⟩
    | some k =>
      dsimp only
      by_cases h : bs.length ≤ k
      · refine ⟨_, bs.length, by rw [Nat.min_eq_right h, decide_eq_true h, decide_eq_true rfl], ?_, Nat.le_refl _, fun h => absurd h (Nat.lt_irrefl _)⟩
        rw [List.take_of_length_le h, List.take_length]
      · refine ⟨_, k, by rw [Nat.min_eq_left (by omega), decide_eq_false h, decide_eq_false (by omega)], rfl, by omega, fun _ => rfl⟩
  refine ⟨?_, fun hc => ?_, fun hc => ?_⟩
  · obtain ⟨bs, h1, h2, _⟩ := C03_roundtrip s
    obtain ⟨w', n, e1, e2, e3, e4⟩ := key bs
    rw [h2] at e1 e3 e4
    exact ⟨bs, w', n, h1, by rw [scalarTo_ok h1, e1], e2, e3, e4⟩
  · have hm' : ∃ bs, marshalBinary P = .ok bs := by
      cases hm : marshalBinary P with
      | err => exact absurd hc ((C07_marshal_fails_iff P).1.1 hm)
      | panic => exact absurd hm (C07_marshal_fails_iff P).2.1
      | ok bs => exact ⟨bs, rfl⟩
    · obtain ⟨bs, hm⟩ := hm'
      have hl : bs.length = 33 := marshalBinary_length hm
      obtain ⟨w', n, e1, e2, e3, e4⟩ := key bs
      rw [hl] at e1 e3 e4
      exact ⟨bs, w', n, hm, by rw [pointTo_ok hm, e1], e2, e3, e4⟩
  · exact pointTo_err ((C07_marshal_fails_iff P).1.2 hc)

/-- C94 on a stream: the scalar 5, the base point and the scalar 7, in pieces of 10, 1 and 100 bytes and one with an error. -/
example : ∃ bs r', putAll [.scalar 5, .point base, .scalar 7] ⟨[], none⟩ = .ok ⟨bs, none⟩ ∧ bs.length = 97 ∧
    getAll [.scalar 0, .point newPoint, .scalar 0] [(bs.take 10, false), (bs.drop 10 |>.take 1, false), (bs.drop 11, true), ([1], false)] =
      .ok ([.scalar 5, .point base, .scalar 7], r') := by
  obtain ⟨bs, h1, h2, h3⟩ := C94_roundtrip [.scalar 5, .point base, .scalar 7] (by
    intro x hx
    simp only [List.mem_cons, List.not_mem_nil, or_false] at hx
    rcases hx with rfl | rfl | rfl
    · exact ⟨by decide, by decide⟩
    · unfold Item.Proper Reduced OnCurve; decide +kernel
    · exact ⟨by decide, by decide⟩) []
  obtain ⟨r', _, h4, _⟩ := h3 [(bs.take 10, false), (bs.drop 10 |>.take 1, false), (bs.drop 11, true), ([1], false)] [] (by
    rw [available, available, available, List.append_nil, show bs.drop 11 = (bs.drop 10).drop 1 by rw [List.drop_drop],
      List.take_append_drop, List.take_append_drop])
  exact ⟨bs, r', h1, h2, h4⟩

/-- What `New` is for (suite.go:63-64, the interface `kyber.Constructor`): a new scalar for the type `kyber.Scalar`, a new point for the
type `kyber.Point`. -/
def NewWorks : Prop := (∃ s, new (some .scalar) = .scalar s) ∧ ∃ P, new (some .point) = .point P

/-- C95. `New` does not do that: `reflect.TypeOf` of a nil interface value is nil, so that both types it compares with are nil; it
returns nil for every type, and a scalar for nil. -/
theorem C95_counterexample : ¬ NewWorks ∧ (∀ t, new (some t) = .nil) ∧ new none = .scalar 0 :=
  ⟨fun ⟨⟨_, h⟩, _⟩ => (nomatch h), fun _ => rfl, by decide⟩

/-- C95, the part that holds: `New` returns nothing wrong, neither a point for the type of scalars nor a scalar for that of points. That it
returns anything for them is missing. -/
theorem C95_new_partial : (∀ P, new (some .scalar) ≠ .point P) ∧ (∀ s, new (some .point) ≠ .scalar s) :=
  ⟨fun _ => nofun, fun _ => nofun⟩

end Verif.Props.Encoding
