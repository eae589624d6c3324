import Verif.Props.Streaming
import Verif.Props.Values

/-!
# Property C60: streaming typed values
-/

set_option autoImplicit false

namespace Hidefix.Props
open Hidefix Hidefix.Spec Hidefix.Proofs Outcome

/-- Pieces of the same size are determined by their concatenation. -/
theorem flatten_inj {k : Nat} (hk : 0 < k) : ∀ {es fs : List (List Byte)},
    (∀ e ∈ es, e.length = k) → (∀ f ∈ fs, f.length = k) → es.flatten = fs.flatten → es = fs
  | [], [], _, _, _ => rfl
  | [], f :: fs, _, h2, h => by
    have := h2 f (by simp)
    have := congrArg List.length h
    simp at this; omega
  | e :: es, [], h1, _, h => by
    have h3 := h1 e (by simp)
    have h4 := congrArg List.length h
    simp only [List.flatten_cons, List.length_append, List.flatten_nil, List.length_nil] at h4
    omega
  | e :: es, f :: fs, h1, h2, h => by
    simp only [List.flatten_cons] at h
    obtain ⟨h3, h4⟩ := List.append_inj h ((h1 e (by simp)).trans (h2 f (by simp)).symm)
    rw [h3, flatten_inj hk (fun x hx => h1 x (by simp [hx])) (fun x hx => h2 x (by simp [hx])) h4]

theorem sameValues_append {h : Host} {o : ByteOrder} {a b c d : List (List Byte)}
    (h1 : SameValues h o a c) (h2 : SameValues h o b d) : SameValues h o (a ++ b) (c ++ d) :=
  List.rel_append h1 h2

/-- The conversion of the items of a byte stream. -/
theorem items_values {hst : Host} {t : Prim} {o : ByteOrder} (hs : Swaps hst t ∨ o ≠ .LE) :
    ∀ (ti : List (List Byte)), (∀ b ∈ ti, t.size ∣ b.length) →
    ∃ (es : List (List Byte)) (vss : List (List (List Byte))), es.flatten = ti.flatten ∧
      (∀ e ∈ es, e.length = t.size) ∧
      (ti.map fun b => do castOk t b; ok (toNativeSlice hst t o b)) =
        vss.map (fun vs => ok vs.flatten) ∧
      SameValues hst o es vss.flatten
  | [], _ => ⟨[], [], rfl, by simp, rfl, .nil⟩
  | b :: ti, h => by
    obtain ⟨es, vss, h1, h2, h3, h4⟩ := items_values hs ti fun x hx => h x (by simp [hx])
    obtain ⟨m, hm⟩ := h b (by simp)
    obtain ⟨fs, p1, -, p3⟩ := pieces_exist (k := t.size) m b (by rw [hm, Nat.mul_comm])
    obtain ⟨vs, e1, e2⟩ := toNative_elems (o := o) hs fs p3
    rw [p1] at e1
    refine ⟨fs ++ es, vs :: vss, by simp [p1, h1], ?_, ?_, by
      rw [List.flatten_cons]; exact sameValues_append e2 h4⟩
    · intro e he
      rcases List.mem_append.1 he with he | he
      · exact p3 e he
      · exact h2 e he
    · have hc : castOk t b = ok () := by
        unfold castOk
        rw [hm, Nat.mul_mod_right]
        rfl
      simp only [List.map_cons, h3, hc, ok_bind, e1]

/-- C60: `stream_values` with the element type of the dataset yields vectors that, concatenated, are
the native values of the selected elements in row-major order, and ends without error. Restricted to
the selections of `Spec.Good` (C15, false otherwise: `not_C12`), to the conversions that work (C22),
and outside a current-thread runtime (`C15_current_thread`). -/
theorem C60_partial {p : Profile} {rt : Rt} {hst : Host} {t : Prim} {io : Io} {file : List Byte}
    {ds : Dataset} {A : List Nat → List Byte} {ext : Extents} {start count : List Nat}
    (h : Setup p io file ds A ext start count) (hg : Good p ds start count) (hrt : rt ≠ .currentThread)
    (ht : t.size = ds.dsize) (hs : Swaps hst t ∨ ds.order ≠ .LE) :
    ∃ vss : List (List (List Byte)),
      streamValues p rt hst io ds t ext = ok ⟨vss.map fun vs => ok vs.flatten, ok ()⟩ ∧
      vss.flatten.length = count.prod ∧
      SameValues hst ds.order ((rowMajor start count).map A) vss.flatten := by
  obtain ⟨items, h1, -, h3, h4, h5⟩ := setup_core h hg
  obtain ⟨⟨titems, e⟩, t1, t2, t3, -⟩ :=
    streamBytes_spec h.addr h.opened h3 (chunkBytes_pos h.wf h.sizes) h1 hrt
  have e' := t2.2 h4
  simp only at e'
  subst e'
  have hti := t3 rfl
  simp only at hti
  have hdvd : ∀ b ∈ titems, t.size ∣ b.length := by
    intro b hb
    rw [hti] at hb
    obtain ⟨it, hit, rfl⟩ := List.mem_map.1 hb
    rw [bytesOf_length (Nat.le_of_lt (h1.le it hit)) (h4 it hit), ht]
    exact Nat.dvd_mul_left _ _
  obtain ⟨es, vss, q1, q2, q3, q4⟩ := items_values (o := ds.order) hs titems hdvd
  have hel : ∀ e ∈ (rowMajor start count).map A, e.length = t.size := by
    intro e hm
    obtain ⟨x, -, rfl⟩ := List.mem_map.1 hm
    rw [h.stores.elem, ht]
  have hes : es = (rowMajor start count).map A := by
    refine flatten_inj (k := t.size) (by cases t <;> decide) q2 hel ?_
    rw [q1, hti, ← selected_flatten, ← h5, List.flatMap_def]
  subst hes
  refine ⟨vss, ?_, ?_, q4⟩
  · unfold streamValues
    rw [t1, ok_bind, ← q3]
  · rw [← q4.length_eq, List.length_map]
    exact rowMajor_length _ _ (by have := h.inb; unfold InBounds at this; omega)

/-- C60: an item that does not hold a whole number of values is an `Err`, and the only way an item of
bytes becomes an `Err`; otherwise it has all its bytes. So no byte is dropped, whatever the type. -/
theorem C60_items {p : Profile} {rt : Rt} {hst : Host} {t : Prim} {io : Io} {ds : Dataset}
    {ext : Extents} {tr : Trace (Outcome (List Byte))}
    (h : streamValues p rt hst io ds t ext = ok tr) :
    ∃ bs, streamBytes p rt io ds ext = ok ⟨bs, tr.ending⟩ ∧
      List.Forall₂ (fun b r => (¬ t.size ∣ b.length ∧ r = err .cast) ∨
        (t.size ∣ b.length ∧ ∃ v : List Byte, r = ok v ∧ v = toNativeSlice hst t ds.order b)) bs
        tr.items := by
  unfold streamValues at h
  obtain ⟨⟨bs, e⟩, h1, h2⟩ := bind_eq_ok.1 h
  obtain rfl := Outcome.ok.inj h2
  refine ⟨bs, h1, ?_⟩
  simp only
  clear h h1 h2
  induction bs with
  | nil => exact .nil
  | cons b bs ih =>
    refine .cons ?_ ih
    by_cases hd : t.size ∣ b.length
    · right
      refine ⟨hd, _, ?_, rfl⟩
      have : castOk t b = ok () := by
        unfold castOk; rw [Nat.mod_eq_zero_of_dvd hd]; rfl
      simp only [this, ok_bind]
    · left
      refine ⟨hd, ?_⟩
      have hne : (b.length % t.size == 0) = false := by
        simp only [beq_eq_false_iff_ne, ne_eq]
        exact fun h => hd (Nat.dvd_of_mod_eq_zero h)
      simp only [castOk, hne]; rfl

/-- `Demo` as 16-bit values. -/
example (p : Profile) : ∃ vss : List (List (List Byte)),
    streamValues p .none .little Demo.io Demo.ds .u16 Demo.ext =
      ok ⟨vss.map fun vs => ok vs.flatten, ok ()⟩ ∧ vss.flatten.length = 6 := by
  obtain ⟨vss, h1, h2, -⟩ := C60_partial (rt := .none) (hst := .little) (t := .u16) (Demo.setup p)
    Demo.good (by decide) rfl (.inl (.inl rfl))
  exact ⟨vss, h1, h2⟩

/-- Unlike `values` (C59), `stream_values` does not refuse a type that is larger than the elements:
`[.., 0, ..]` of bytes read as 16-bit values yields two values for four elements. -/
theorem not_C60_refused (p : Profile) :
    streamValues p .none .little io242 contig242 .u16 (.extent [.index 0, .sliceEnd 0 2, .slice 0]) =
      ok ⟨[ok [0, 1, 2, 3]], ok ()⟩ ∧
    values p .little .u16 contig242 (directReadTo p io242 contig242 sortByAddr)
      (.extent [.index 0, .sliceEnd 0 2, .slice 0]) = err .datatype := by
  constructor <;> cases p <;> decide +kernel

end Hidefix.Props
