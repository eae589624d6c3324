import Verif.Proofs.Xdr
import Verif.Proofs.Shuffle

/-!
# Properties C20, C21, C22: filters
-/

set_option autoImplicit false

namespace Hidefix.Props
open Hidefix Hidefix.Spec Hidefix.Proofs Outcome

/-! ## C20 -/

/-- C20: on arrays of words of `w` bytes, whatever the destinations held before: `shuffle` then
`unshuffle` gives back the array, `unshuffle` then `shuffle` too. Both always succeed. -/
theorem C20 {w : Nat} {x d1 d2 : List Byte} (hw : 0 < w) (hm : w ∣ x.length)
    (h1 : d1.length = x.length) (h2 : d2.length = x.length) :
    (shuffle w x d1 >>= fun y => unshuffle w y d2) = ok x ∧
    (unshuffle w x d1 >>= fun y => shuffle w y d2) = ok x := by
  refine ⟨?_, shuffle_unshuffle hw hm h1 h2⟩
  rw [shuffle_spec hw hm h1, ok_bind, unshuffle_shuffled hw hm h2]

/-- C20: `unshuffle_structured` and `unshuffle` are the same function, for every word size. -/
theorem C20_structured {w : Nat} {src dest : List Byte} (hw : 0 < w) (hm : w ∣ src.length)
    (hd : dest.length = src.length) : unshuffleStructured w src dest = unshuffle w src dest :=
  structured_eq_unshuffle hw hm hd

/-- What `shuffle` does, independently of loops: byte `i` of word `j` goes to position
`i * number of words + j`. -/
theorem C20_positions {w n i j : Nat} {x d : List Byte} (hw : 0 < w) (hx : x.length = w * n)
    (hd : d.length = x.length) (hi : i < w) (hj : j < n) :
    ∃ y, shuffle w x d = ok y ∧ y.length = x.length ∧ y[i * n + j]? = x[j * w + i]? := by
  obtain ⟨y, h1, h2, h3⟩ := shuffle_ok hw hx (hd.trans hx)
  refine ⟨y, h1, h2.trans hx.symm, ?_⟩
  rw [h3 _ (pos_lt' hi hj), shufPos_mk hi hj]

/-- Destinations of the wrong length are refused by an assertion before any unchecked access. -/
theorem C20_mismatch {w : Nat} {src dest : List Byte} (h : dest.length ≠ src.length) :
    shuffle w src dest = .panic .assertion ∧ unshuffle w src dest = .panic .assertion ∧
    unshuffleStructured w src dest = .panic .assertion := by
  have h' : ¬ src.length = dest.length := fun e => h e.symm
  refine ⟨?_, ?_, ?_⟩
  · unfold shuffle; simp [assertP, h]
  · unfold unshuffle; simp [assertP, h]
  · unfold unshuffleStructured; simp [assertP, h']

example : (3 : Nat) ∣ ([1, 2, 3, 4, 5, 6] : List Byte).length := by decide
example : shuffle 3 [1, 2, 3, 4, 5, 6] [0, 0, 0, 0, 0, 0] = ok [1, 4, 2, 5, 3, 6] := by decide

/-! ## C21 -/

/-- C21: for 1, 2, 4 and 8, and a length that is a multiple, `unshuffle_sized` gives the array whose
shuffle is the argument. -/
theorem C21 {src : List Byte} {sz : Nat} (hk : sz = 1 ∨ sz = 2 ∨ sz = 4 ∨ sz = 8)
    (hm : sz ∣ src.length) (d : List Byte) (hd : d.length = src.length) :
    ∃ x, unshuffleSized src sz = ok x ∧ x.length = src.length ∧ shuffle sz x d = ok src := by
  have hpos : 0 < sz := by omega
  obtain ⟨n, hn⟩ := hm
  obtain ⟨x, h1, h2, -⟩ := unshuffle_ok (dest := d) hpos hn (hd.trans hn)
  have hs := shuffle_unshuffle (d2 := d) hpos ⟨n, hn⟩ hd hd
  rw [h1, ok_bind] at hs
  have hx : src = shuffled sz x := by
    have := shuffle_spec (dest := d) hpos ⟨n, h2⟩ (hd.trans (hn.trans h2.symm))
    rw [hs] at this
    exact Outcome.ok.inj this
  refine ⟨x, ?_, h2.trans hn.symm, hs⟩
  rw [hx]
  exact unshuffleSized_shuffled hk ⟨n, h2⟩

/-- C21: any other word size, or a length that is not a multiple, panics; there is no undefined
behaviour and no error value. -/
theorem C21_rejects {src : List Byte} {sz : Nat}
    (h : ¬ ((sz = 1 ∨ sz = 2 ∨ sz = 4 ∨ sz = 8) ∧ sz ∣ src.length)) :
    ∃ f, unshuffleSized src sz = .panic f := by
  have hs : ∀ w, 0 < w → ¬ w ∣ src.length →
      ∃ f, unshuffleStructured w src (List.replicate src.length 0) = .panic f := by
    intro w hw hd
    refine ⟨.assertion, ?_⟩
    have : src.length % w ≠ 0 := fun e => hd (Nat.dvd_of_mod_eq_zero e)
    unfold unshuffleStructured
    rw [if_neg (by omega)]
    simp [assertP, this]
  unfold unshuffleSized
  dsimp only
  split
  · exact absurd ⟨.inl rfl, Nat.one_dvd _⟩ h
  · exact hs 2 (by omega) fun e => h ⟨by simp, e⟩
  · exact hs 4 (by omega) fun e => h ⟨by simp, e⟩
  · exact hs 8 (by omega) fun e => h ⟨by simp, e⟩
  · exact ⟨_, rfl⟩

example : unshuffleSized [1, 4, 2, 5] 2 = ok [1, 2, 4, 5] := by decide
example : unshuffleSized [1, 4, 2] 2 = .panic .assertion := by decide
example : unshuffleSized [1, 4, 2] 3 = .panic .unimplemented := by decide

/-! ## C22 -/

/-- The conversions that work: all types on little-endian hosts; integers on big-endian hosts. -/
def Swaps (h : Host) (t : Prim) : Prop := h = .little ∨ t.isFloat = false

theorem swapWord_eq {h : Host} {t : Prim} (hs : Swaps h t) (w : List Byte) :
    swapWord h t w = w.reverse := by
  unfold swapWord
  rcases hs with rfl | hf
  · simp
  · simp [hf]

theorem size_pos (t : Prim) : 0 < t.size := by cases t <;> decide

/-- C22: in a slice of elements `es`, stored in the known byte order `o`, every element is replaced by
the element that has the same bytes from most to least significant, in the host's order. On big-endian
hosts only for integers and for big-endian elements: missing are little-endian floats there
(`not_C22`). -/
theorem C22_partial {h : Host} {t : Prim} {o : ByteOrder} (hs : Swaps h t ∨ o ≠ .LE) (ho : o ≠ .Unknown)
    (es : List (List Byte)) (he : ∀ e ∈ es, e.length = t.size) :
    ∃ es' : List (List Byte), toNativeSlice h t o es.flatten = es'.flatten ∧
      List.Forall₂ (fun e e' => e'.length = t.size ∧ msFirst h.native e' = msFirst o e) es es' := by
  have hrev : Swaps h t → (words t.size es.flatten).map (swapWord h t) = es.map List.reverse := by
    intro hs
    rw [words_flatten (size_pos t) he]
    exact List.map_congr_left fun w _ => swapWord_eq hs w
  have hid : ∀ o' : ByteOrder, List.Forall₂ (fun e e' : List Byte => e'.length = t.size ∧
      msFirst o' e' = msFirst o' e) es es := fun o' => by
    rw [List.forall₂_same]; exact fun e hm => ⟨he e hm, rfl⟩
  have hsw : ∀ o1 o2 : ByteOrder, (∀ e : List Byte, msFirst o1 e.reverse = msFirst o2 e) →
      List.Forall₂ (fun e e' : List Byte => e'.length = t.size ∧
      msFirst o1 e' = msFirst o2 e) es (es.map List.reverse) := fun o1 o2 h12 => by
    rw [List.forall₂_map_right_iff, List.forall₂_same]
    exact fun e hm => ⟨by rw [List.length_reverse]; exact he e hm, h12 e⟩
  unfold toNativeSlice
  cases h <;> cases o
  all_goals first
    | exact absurd rfl ho
    | exact ⟨es, rfl, hid _⟩
    | exact ⟨es.map List.reverse, by rw [← hrev (.inl rfl)],
        hsw _ _ fun e => by simp [msFirst, Host.native]⟩
    | exact ⟨es.map List.reverse, by rw [← hrev (hs.resolve_right (by simp))],
        hsw _ _ fun e => by simp [msFirst, Host.native]⟩

/-- C22 for integers, in terms of numbers, on any host: the number an element holds on the host after
the conversion is the number that was stored. -/
theorem C22_integers {h : Host} {t : Prim} {o : ByteOrder} (ht : t.isFloat = false)
    (ho : o ≠ .Unknown) (es : List (List Byte)) (he : ∀ e ∈ es, e.length = t.size) :
    ∃ es' : List (List Byte), toNativeSlice h t o es.flatten = es'.flatten ∧
      es'.length = es.length ∧
      List.Forall₂ (fun e e' => e'.length = t.size ∧
        intVal t.isSigned h.native e' = intVal t.isSigned o e) es es' := by
  obtain ⟨es', h1, h2⟩ := C22_partial (h := h) (.inl (.inr ht)) ho es he
  refine ⟨es', h1, h2.length_eq.symm, h2.imp fun e e' h3 => ⟨h3.1, ?_⟩⟩
  unfold intVal
  rw [h3.2]

/-- C22: converting twice gives back the slice; for an unknown order nothing is changed; the length is
never changed. -/
theorem C22_involution {h : Host} {t : Prim} (o : ByteOrder) (es : List (List Byte))
    (he : ∀ e ∈ es, e.length = t.size) :
    toNativeSlice h t o (toNativeSlice h t o es.flatten) = es.flatten ∧
    toNativeSlice h t .Unknown es.flatten = es.flatten ∧
    (toNativeSlice h t o es.flatten).length = es.flatten.length := by
  have hsl : ∀ e : List Byte, (swapWord h t e).length = e.length := by
    intro e; unfold swapWord; cases h <;> split <;> simp
  have hss : ∀ e : List Byte, swapWord h t (swapWord h t e) = e := by
    intro e; unfold swapWord; cases h <;> split <;> simp
  have he' : ∀ e ∈ es.map (swapWord h t), e.length = t.size := by
    intro e hm
    obtain ⟨e0, h0, rfl⟩ := List.mem_map.1 hm
    rw [hsl]; exact he e0 h0
  have h2 : ((words t.size ((words t.size es.flatten).map (swapWord h t)).flatten).map
      (swapWord h t)).flatten = es.flatten := by
    rw [words_flatten (size_pos t) he, words_flatten (size_pos t) he', List.map_map]
    congr 1
    conv_rhs => rw [← List.map_id es]
    exact List.map_congr_left fun e _ => hss e
  have h3 : ((words t.size es.flatten).map (swapWord h t)).flatten.length = es.flatten.length := by
    rw [words_flatten (size_pos t) he, flatten_length_const he', flatten_length_const he,
      List.length_map]
  refine ⟨?_, by cases h <;> rfl, ?_⟩
  · unfold toNativeSlice
    cases h <;> cases o <;> first | rfl | exact h2
  · unfold toNativeSlice
    cases h <;> cases o <;> first | rfl | exact h3

/-- C22, single values: the same, and an unknown order panics. -/
theorem C22_one_partial {h : Host} {t : Prim} {o : ByteOrder} (hs : Swaps h t ∨ o ≠ .LE) (e : List Byte) :
    (o ≠ .Unknown → ∃ e', toNativeOne h t o e = ok e' ∧ e'.length = e.length ∧
      msFirst h.native e' = msFirst o e) ∧
    toNativeOne h t .Unknown e = .panic .unimplemented := by
  refine ⟨fun ho => ?_, by cases h <;> rfl⟩
  unfold toNativeOne
  cases h <;> cases o
  all_goals first
    | exact absurd rfl ho
    | exact ⟨_, rfl, rfl, rfl⟩
    | (rw [swapWord_eq (.inl rfl)]
       exact ⟨_, rfl, by simp, by simp [msFirst, Host.native]⟩)
    | (rw [swapWord_eq (hs.resolve_right (by simp))]
       exact ⟨_, rfl, by simp, by simp [msFirst, Host.native]⟩)

/-- C22 fails for floats on big-endian hosts: the number 1.0 stored in little-endian order is left as
it is, which the host reads as 4.6e-41. -/
theorem not_C22 : ∃ (h : Host) (t : Prim) (o : ByteOrder) (e : List Byte), o ≠ .Unknown ∧
    e.length = t.size ∧ toNativeSlice h t o e = e ∧ msFirst h.native e ≠ msFirst o e :=
  ⟨.big, .f32, .LE, [0, 0, 0x80, 0x3f], by decide, by decide, by decide, by decide⟩

/-- C22, exactly: the conversion of slices to native order is right for every content if and only if they
are not little-endian floats on a big-endian host. -/
theorem C22_exact (h : Host) (t : Prim) (o : ByteOrder) (ho : o ≠ .Unknown) :
    (∀ es : List (List Byte), (∀ e ∈ es, e.length = t.size) →
      ∃ es' : List (List Byte), toNativeSlice h t o es.flatten = es'.flatten ∧
        List.Forall₂ (fun e e' => e'.length = t.size ∧ msFirst h.native e' = msFirst o e) es es') ↔
    ¬ (h = .big ∧ t.isFloat = true ∧ o = .LE) := by
  constructor
  · rintro hx ⟨rfl, ht, rfl⟩
    have hl : ∀ e ∈ [(1 : Byte) :: List.replicate (t.size - 1) 0], e.length = t.size := by
      cases t <;> simp [Prim.size]
    obtain ⟨es', h1, h2⟩ := hx _ hl
    cases h2 with
    | cons h3 h4 =>
      cases h4
      simp only [List.flatten_cons, List.flatten_nil, List.append_nil] at h1
      rw [← h1] at h3
      revert h3
      clear h1 hl hx
      cases t <;> first | (exact absurd ht (by decide)) | decide
  · intro hn es hes
    refine C22_partial ?_ ho es hes
    cases h with
    | little => exact .inl (.inl rfl)
    | big =>
      by_cases hf : t.isFloat = true
      · exact .inr fun hle => hn ⟨rfl, hf, hle⟩
      · exact .inl (.inr (by simpa using hf))

example : ∀ e ∈ ([[1, 2], [3, 4]] : List (List Byte)), e.length = Prim.size .i16 := by decide
example : toNativeSlice .little .i16 .BE [1, 2, 3, 4] = [2, 1, 4, 3] := by decide
example : intVal true .BE [0xff, 0xfe] = -2 := by decide

end Hidefix.Props
