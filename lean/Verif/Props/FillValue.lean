import Verif.Props.Python
import Verif.Proofs.Xdr
import Verif.Proofs.Float

/-!
# Property C68: `apply_fill_value` replaces exactly the elements with the given value
-/

set_option autoImplicit false

namespace Hidefix.Props
open Hidefix Hidefix.Spec Hidefix.Proofs Outcome

/-- The numbers of an integer type. -/
def FitsType (t : Prim) (i : Int) : Prop :=
  if t.isSigned then -(2 ^ (8 * t.size - 1)) ≤ i ∧ i < 2 ^ (8 * t.size - 1)
  else 0 ≤ i ∧ i < 2 ^ (8 * t.size)

instance (t : Prim) (i : Int) : Decidable (FitsType t i) := by unfold FitsType; infer_instance

/-- A Python scalar that is a number of the integer type. -/
def IntOf (t : Prim) (x : PyScalar) (i : Int) : Prop := x.index = some i ∧ FitsType t i

/-- The bytes, most significant first, of the scalar `f` as a number of the float type `t`. -/
def FloatOf (narrow : List Byte → List Byte) (t : Prim) (f : PyScalar) (c : List Byte) : Prop :=
  ∃ d, f.float = some d ∧ d.length = 8 ∧ c = if t = .f32 then narrow d else d

theorem memBytes_native (h : Host) (l : List Byte) : memBytes h l = msFirst h.native l := by
  cases h <;> rfl

theorem msFirst_twice (o : ByteOrder) (l : List Byte) : msFirst o (msFirst o l) = l := by
  cases o <;> simp [msFirst]

theorem msFirst_len (o : ByteOrder) (l : List Byte) : (msFirst o l).length = l.length := by
  cases o <;> simp [msFirst]

theorem forall₂_get {α β : Type} {R : α → β → Prop} {l : List α} {m : List β}
    (hl : l.length = m.length) (h : ∀ (i : Nat) (a : α) (b : β), l[i]? = some a → m[i]? = some b → R a b) :
    List.Forall₂ R l m := by
  induction l generalizing m with
  | nil =>
    have := List.eq_nil_of_length_eq_zero hl.symm
    subst this
    exact .nil
  | cons a l ih =>
    cases m with
    | nil => simp at hl
    | cons b m =>
      exact .cons (h 0 a b rfl rfl) (ih (by simpa using hl) fun i a b h1 h2 => h (i + 1) a b h1 h2)

theorem forall₂_at {α β : Type} {R : α → β → Prop} {l : List α} {m : List β}
    (h : List.Forall₂ R l m) : ∀ {i : Nat} {a : α} {b : β}, l[i]? = some a → m[i]? = some b → R a b := by
  induction h with
  | nil => intro i a b h1; simp at h1
  | cons hr _ ih =>
    intro i a b h1 h2
    cases i with
    | zero => simp at h1 h2; subst h1 h2; exact hr
    | succ i => exact ih h1 h2

theorem intVal_inj {s : Bool} {o : ByteOrder} {a b : List Byte} (hl : a.length = b.length) :
    intVal s o a = intVal s o b ↔ a = b := by
  refine ⟨fun h => ?_, fun h => by rw [h]⟩
  have key : uval (msFirst o a) = uval (msFirst o b) := by
    have h1 := uval_lt (msFirst o a)
    have h2 := uval_lt (msFirst o b)
    rw [msFirst_len] at h1 h2
    rw [← hl] at h2
    unfold intVal at h
    cases s with
    | false => simpa using h
    | true =>
      simp only [if_true, sval, msFirst_len, ← hl] at h
      have : ((256 ^ a.length : Nat) : Int) = 256 ^ a.length := by push_cast; rfl
      rw [← this] at h
      generalize 256 ^ a.length = N at *
      split at h <;> split at h <;> omega
  have := uval_inj (by rw [msFirst_len, msFirst_len, hl]) key
  rw [← msFirst_twice o a, this, msFirst_twice]

theorem extract_float {narrow : List Byte → List Byte} {t : Prim} (ht : t.isFloat = true) {f : PyScalar}
    {c : List Byte} (h : FloatOf narrow t f c) : extractAs narrow t f = ok c := by
  obtain ⟨d, h1, -, rfl⟩ := h
  cases t <;> simp_all [extractAs, expectSome, Prim.isFloat]

theorem extract_int {narrow : List Byte → List Byte} {t : Prim} (ht : t.isFloat = false) {x : PyScalar}
    {i : Int} (h : IntOf t x i) : ∃ c, extractAs narrow t x = ok c ∧ c.length = t.size ∧
      intVal t.isSigned .BE c = i := by
  obtain ⟨h1, h2⟩ := h
  refine ⟨intBytes t.size i, ?_, intBytes_length _ _, ?_⟩
  · unfold extractAs
    cases t <;> simp only [Prim.isFloat, Bool.true_eq_false] at ht <;>
      simp only [h1, FitsType, Prim.isSigned, if_true, if_false, Bool.false_eq_true] at h2 ⊢ <;>
      rw [if_pos (by simp only [Prim.size] at h2 ⊢; norm_num at h2 ⊢; omega)]
  · have hu := uval_intBytes t.size i
    have hl := intBytes_length t.size i
    show (if t.isSigned then sval (intBytes t.size i) else (uval (intBytes t.size i) : Int)) = i
    unfold sval
    rw [hl]
    cases t <;> simp only [Prim.isFloat, Bool.true_eq_false] at ht <;>
      simp only [FitsType, Prim.isSigned, Prim.size, if_true, if_false, Bool.false_eq_true] at h2 hu ⊢ <;>
      norm_num at h2 hu ⊢ <;> omega

theorem extract_no_int {narrow : List Byte → List Byte} {t : Prim} (ht : t.isFloat = false) {x : PyScalar}
    (h : ¬ ∃ i, IntOf t x i) : extractAs narrow t x = panic .unwrap := by
  cases hx : x.index with
  | none => unfold extractAs; cases t <;> simp_all [Prim.isFloat]
  | some i =>
    have hno : ¬ FitsType t i := fun hi => h ⟨i, hx, hi⟩
    unfold extractAs
    cases t <;> simp only [Prim.isFloat, Bool.true_eq_false] at ht <;>
      simp only [hx, FitsType, Prim.isSigned, if_true, if_false, Bool.false_eq_true] at hno ⊢ <;>
      rw [if_neg (by simp only [Prim.size] at hno ⊢; norm_num at hno ⊢; omega)]

/-- C68 for integers: if both scalars are numbers of the element type, every element with the value of the
first becomes the second and all others stay as they are, whatever the order in which the elements are
visited; otherwise the call panics. The array is in memory, in the byte order of the host. -/
theorem C68_ints {narrow : List Byte → List Byte} {h : Host} {t : Prim} (ht : t.isFloat = false)
    (cond fv : PyScalar) (vs : List (List Byte)) (hv : ∀ v ∈ vs, v.length = t.size)
    {sched : List Nat} (hs : sched.Perm (List.range vs.length)) :
    (∀ c f, IntOf t cond c → IntOf t fv f →
      ∃ ws, pyApplyFill narrow h sched t cond fv vs.flatten = ok ws.flatten ∧
        List.Forall₂ (fun v w => w.length = t.size ∧
          (intVal t.isSigned h.native v = c → intVal t.isSigned h.native w = f) ∧
          (intVal t.isSigned h.native v ≠ c → w = v)) vs ws) ∧
    ((¬ ∃ c f, IntOf t cond c ∧ IntOf t fv f) →
      pyApplyFill narrow h sched t cond fv vs.flatten = panic .unwrap) := by
  constructor
  · intro c f hc hf
    obtain ⟨cb, c1, c2, c3⟩ := extract_int (narrow := narrow) ht hc
    obtain ⟨fb, f1, f2, f3⟩ := extract_int (narrow := narrow) ht hf
    obtain ⟨ws, h1, h2, h3⟩ := C41 (fun a b => primEq t (memBytes h a) (memBytes h b)) (memBytes h cb)
      (memBytes h fb) vs hs
    have hpos : 0 < t.size := by cases t <;> decide
    have hval : ∀ b : List Byte, intVal t.isSigned h.native (memBytes h b) = intVal t.isSigned .BE b := by
      intro b
      rw [memBytes_native]
      unfold intVal
      rw [msFirst_twice]
      rfl
    refine ⟨ws, ?_, forall₂_get h2.symm ?_⟩
    · unfold pyApplyFill
      rw [c1, ok_bind, f1, ok_bind, words_flatten hpos hv, h1, ok_bind]
    · intro i v w hv' hw
      obtain ⟨k1, k2⟩ := h3 i v hv'
      have hvl := hv v (List.mem_of_getElem? hv')
      have hiff : intVal t.isSigned h.native v = c ↔
          primEq t (memBytes h v) (memBytes h (memBytes h cb)) = true := by
        rw [← c3, ← hval cb, intVal_inj (by rw [memBytes_native, msFirst_len, hvl, c2])]
        simp only [primEq, ht, Bool.false_eq_true, if_false, beq_iff_eq, memBytes_native, msFirst_twice]
        constructor
        · intro e; rw [e, msFirst_twice]
        · intro e; rw [← e, msFirst_twice]
      by_cases he : intVal t.isSigned h.native v = c
      · have := k1 (hiff.1 he)
        rw [hw, Option.some.injEq] at this
        subst this
        refine ⟨by rw [memBytes_native, msFirst_len, f2], fun _ => ?_, fun hx => absurd he hx⟩
        rw [hval, f3]
      · have := k2 (by rw [Bool.eq_false_iff]; exact fun hx => he (hiff.2 hx))
        rw [hw, Option.some.injEq] at this
        subst this
        exact ⟨hvl, fun hx => absurd hx he, fun _ => rfl⟩
  · intro hno
    unfold pyApplyFill
    by_cases hc : ∃ c, IntOf t cond c
    · obtain ⟨c, hc⟩ := hc
      obtain ⟨cb, c1, -⟩ := extract_int (narrow := narrow) ht hc
      rw [c1, ok_bind, extract_no_int ht (fun ⟨f, hf⟩ => hno ⟨c, f, hc, hf⟩)]
      rfl
    · rw [extract_no_int ht hc]
      rfl

theorem floatSize {t : Prim} (ht : t.isFloat = true) : t.size = 4 ∨ t.size = 8 := by
  cases t <;> simp [Prim.isFloat, Prim.size] at ht ⊢

/-- C68 for floats: every element equal as a number to the first scalar (a NaN is equal to nothing, the
zeros are equal) becomes the second, and all others stay as they are, bit by bit; `c` and `f` are the
scalars as numbers of the element type. -/
theorem C68_floats {narrow : List Byte → List Byte} {h : Host} {t : Prim} (ht : t.isFloat = true)
    {cond fv : PyScalar} {c f : List Byte} (hc : FloatOf narrow t cond c) (hf : FloatOf narrow t fv f)
    (hcl : c.length = t.size) (hfl : f.length = t.size)
    (vs : List (List Byte)) (hv : ∀ v ∈ vs, v.length = t.size)
    {sched : List Nat} (hs : sched.Perm (List.range vs.length)) :
    ∃ ws, pyApplyFill narrow h sched t cond fv vs.flatten = ok ws.flatten ∧
      List.Forall₂ (fun v w => w.length = t.size ∧ msFirst h.native w =
        if FloatEq (msFirst h.native v) c then f else msFirst h.native v) vs ws := by
  obtain ⟨ws, h1, h2, h3⟩ := C41 (fun a b => primEq t (memBytes h a) (memBytes h b)) (memBytes h c)
    (memBytes h f) vs hs
  have hpos : 0 < t.size := by cases t <;> decide
  refine ⟨ws, ?_, forall₂_get h2.symm ?_⟩
  · unfold pyApplyFill
    rw [extract_float ht hc, ok_bind, extract_float ht hf, ok_bind, words_flatten hpos hv, h1, ok_bind]
  · intro i v w hv' hw
    obtain ⟨k1, k2⟩ := h3 i v hv'
    have hvl := hv v (List.mem_of_getElem? hv')
    simp only [primEq, ht, if_true, memBytes_native, msFirst_twice] at k1 k2
    have hiff := ieeeEq_iff (a := msFirst h.native v) (b := c)
      (by rw [msFirst_len, hvl]; exact floatSize ht) (by rw [msFirst_len, hvl, hcl])
    by_cases he : FloatEq (msFirst h.native v) c
    · have := k1 (hiff.2 he)
      rw [hw, Option.some.injEq] at this
      subst this
      rw [if_pos he, msFirst_twice, msFirst_len]
      exact ⟨hfl, rfl⟩
    · have := k2 (by rw [Bool.eq_false_iff]; exact fun hx => he (hiff.1 hx))
      rw [hw, Option.some.injEq] at this
      subst this
      rw [if_neg he]
      exact ⟨hvl, rfl⟩

/-- Neither scalar need be a number: then the call panics. -/
theorem C68_floats_refused {narrow : List Byte → List Byte} {h : Host} {t : Prim} (ht : t.isFloat = true)
    {cond fv : PyScalar} (hno : cond.float = none ∨ fv.float = none) (bytes : List Byte)
    (sched : List Nat) : pyApplyFill narrow h sched t cond fv bytes = panic .unwrap := by
  have hx : ∀ x : PyScalar, x.float = none → extractAs narrow t x = panic .unwrap := by
    intro x hx
    cases t <;> simp [Prim.isFloat] at ht <;> simp [extractAs, hx, expectSome]
  unfold pyApplyFill
  cases hc : cond.float with
  | none => rw [hx cond hc]; rfl
  | some d =>
    rcases hno with hno | hno
    · rw [hno] at hc; simp at hc
    · have : extractAs narrow t cond = ok (if t = .f32 then narrow d else d) := by
        cases t <;> simp_all [extractAs, expectSome, Prim.isFloat]
      rw [this, ok_bind, hx fv hno]; rfl

/-- `-1` becomes `-32768` in a little-endian array of `i16`; `65535`, which has the same bytes as `-1`, is
refused. -/
example : pyApplyFill id .little [1, 0, 2] .i16 ⟨some (-1), none⟩ ⟨some (-32768), none⟩
      [255, 255, 255, 0, 255, 255] = ok [0, 128, 255, 0, 0, 128] ∧
    pyApplyFill id .little [1, 0, 2] .i16 ⟨some 65535, none⟩ ⟨some 0, none⟩
      [255, 255, 255, 0, 255, 255] = panic .unwrap ∧
    IntOf .i16 ⟨some (-1), none⟩ (-1) ∧ IntOf .i16 ⟨some (-32768), none⟩ (-32768) ∧
    ¬ FitsType .i16 65535 := by
  refine ⟨by decide +kernel, by decide +kernel, ⟨rfl, by decide⟩, ⟨rfl, by decide⟩, by decide⟩

/-- `0.0` and `-0.0` are the same number; NaN is not itself. -/
example : FloatEq [0x80, 0, 0, 0] [0, 0, 0, 0] ∧ ¬ FloatEq [0x7f, 0xc0, 0, 0] [0x7f, 0xc0, 0, 0] ∧
    floatVal [0x3f, 0x80, 0, 0] = .fin (2 ^ 149) ∧
    pyApplyFill id .big [0, 1, 2] .f64 ⟨some 0, some [0, 0, 0, 0, 0, 0, 0, 0]⟩
      ⟨none, some [0x7f, 0xf8, 0, 0, 0, 0, 0, 0]⟩
      ([0x80, 0, 0, 0, 0, 0, 0, 0] ++ [0x3f, 0xf0, 0, 0, 0, 0, 0, 0] ++ [0, 0, 0, 0, 0, 0, 0, 0]) =
      ok ([0x7f, 0xf8, 0, 0, 0, 0, 0, 0] ++ [0x3f, 0xf0, 0, 0, 0, 0, 0, 0] ++
        [0x7f, 0xf8, 0, 0, 0, 0, 0, 0]) := by
  refine ⟨by decide +kernel, by decide +kernel, by decide +kernel, by decide +kernel⟩

end Hidefix.Props
