import Verif.Spec.Grid
import Mathlib.Tactic.Ring

/-!
# Row-major arithmetic on lists, outermost dimension first
-/

namespace Hidefix.Proofs
open Hidefix Hidefix.Spec Outcome

/-- Exact strides: product of the inner dimensions. -/
def stridesOf : List Nat → List Nat
  | [] => []
  | _ :: cs => cs.prod :: stridesOf cs

theorem stridesOf_length (l : List Nat) : (stridesOf l).length = l.length := by
  induction l with
  | nil => rfl
  | cons a l ih => simp [stridesOf, ih]

theorem prod_pos {l : List Nat} (h : ∀ c ∈ l, 0 < c) : 0 < l.prod := by
  induction l with
  | nil => simp
  | cons a l ih =>
    simp only [List.prod_cons]
    exact Nat.mul_pos (h a (by simp)) (ih fun c hc => h c (by simp [hc]))

/-- Exact version of the scan. -/
def scanOf : Nat → List Nat → List Nat
  | _, [] => []
  | acc, c :: cs => acc :: scanOf (acc * c) cs

theorem strideScan_ok (p : Profile) (acc : Nat) (l : List Nat) (hp : ∀ c ∈ l, 0 < c)
    (h : acc * l.prod < W) : strideScan p acc l = ok (scanOf acc l) := by
  induction l generalizing acc with
  | nil => rfl
  | cons c cs ih =>
    simp only [List.prod_cons] at h
    have hpos : 0 < cs.prod := prod_pos fun x hx => hp x (by simp [hx])
    have h1 : acc * c < W := by
      have : acc * c * 1 ≤ acc * c * cs.prod := Nat.mul_le_mul_left _ hpos
      rw [← Nat.mul_assoc] at h; omega
    simp only [strideScan]
    rw [mul64_of_lt h1, ok_bind, ih _ (fun x hx => hp x (by simp [hx])) (by rw [Nat.mul_assoc]; exact h)]
    rfl

theorem scanOf_append (acc : Nat) (l : List Nat) (c : Nat) :
    scanOf acc (l ++ [c]) = scanOf acc l ++ [acc * l.prod] := by
  induction l generalizing acc with
  | nil => simp [scanOf]
  | cons a l ih => simp [scanOf, ih, Nat.mul_assoc]

theorem scanOf_reverse (l : List Nat) : (scanOf 1 l.reverse).reverse = stridesOf l := by
  induction l with
  | nil => rfl
  | cons a l ih =>
    simp only [List.reverse_cons, scanOf_append, List.reverse_append, List.reverse_nil,
      List.nil_append, List.singleton_append, ih, stridesOf, Nat.one_mul, List.prod_reverse]

theorem strides_ok (p : Profile) (l : List Nat) (hp : ∀ c ∈ l, 0 < c) (h : l.prod < W) :
    strides p l = ok (stridesOf l) := by
  unfold strides
  rw [strideScan_ok p 1 l.reverse (by simpa using hp) (by simpa using h)]
  simp [scanOf_reverse]

/-- Elements of `a` are below the corresponding elements of `b`, equal lengths. -/
def AllLt : List Nat → List Nat → Prop
  | a :: as, b :: bs => a < b ∧ AllLt as bs
  | [], [] => True
  | _, _ => False

theorem AllLt.length {a b : List Nat} (h : AllLt a b) : a.length = b.length := by
  induction a generalizing b with
  | nil => cases b <;> simp_all [AllLt]
  | cons x a ih =>
    cases b with
    | nil => simp [AllLt] at h
    | cons y b => simp [ih h.2]

theorem linear_lt {x d : List Nat} (h : AllLt x d) : linear x d < d.prod := by
  induction x generalizing d with
  | nil => cases d <;> simp_all [AllLt, linear]
  | cons a x ih =>
    cases d with
    | nil => simp [AllLt] at h
    | cons b d =>
      have := ih h.2
      simp only [linear, List.prod_cons]
      have : (a + 1) * d.prod ≤ b * d.prod := Nat.mul_le_mul_right _ h.1
      rw [Nat.add_mul] at this
      omega

theorem chunkIndexAux_ok (p : Profile) (acc : Nat) (xs cs gs : List Nat)
    (h : AllLt (List.zipWith (fun x c => x / c) xs cs) gs) (hl : xs.length = cs.length)
    (hW : acc + linear (List.zipWith (fun x c => x / c) xs cs) gs < W) :
    chunkIndexAux p acc xs cs (stridesOf gs)
      = ok (acc + linear (List.zipWith (fun x c => x / c) xs cs) gs) := by
  induction xs generalizing acc cs gs with
  | nil => cases cs <;> simp_all [chunkIndexAux, linear]
  | cons x xs ih =>
    cases cs with
    | nil => simp at hl
    | cons c cs =>
      cases gs with
      | nil => simp [AllLt] at h
      | cons g gs =>
        simp only [List.zipWith_cons_cons, AllLt, linear, stridesOf, chunkIndexAux] at *
        rw [mul64_of_lt (by omega)]
        simp only [ok_bind]
        rw [add64_of_lt (by omega)]
        simp only [ok_bind]
        rw [ih _ _ _ h.2 (by simpa using hl) (by omega)]
        congr 1; omega

theorem chunkStartAux_ok (p : Profile) (acc : Nat) (xs os cs : List Nat)
    (hb : InBox os cs xs)
    (hW : acc + linear (List.zipWith (fun x o => x - o) xs os) cs < W) :
    chunkStartAux p acc xs os (stridesOf cs)
      = ok (acc + linear (List.zipWith (fun x o => x - o) xs os) cs) := by
  induction xs generalizing acc os cs with
  | nil => cases os <;> cases cs <;> simp_all [chunkStartAux, linear, InBox]
  | cons x xs ih =>
    cases os with
    | nil => cases cs <;> simp [InBox] at hb
    | cons o os =>
      cases cs with
      | nil => simp [InBox] at hb
      | cons c cs =>
        simp only [List.zipWith_cons_cons, InBox, linear, stridesOf, chunkStartAux] at *
        rw [sub64_of_le hb.1.1]
        simp only [ok_bind]
        rw [mul64_of_lt (by omega)]
        simp only [ok_bind]
        rw [add64_of_lt (by omega)]
        simp only [ok_bind]
        rw [ih _ _ _ hb.2 (by omega)]
        congr 1; omega

theorem rowMajor_length (is cs : List Nat) (h : is.length = cs.length) :
    (rowMajor is cs).length = cs.prod := by
  induction is generalizing cs with
  | nil => cases cs <;> simp_all [rowMajor]
  | cons i is ih =>
    cases cs with
    | nil => simp at h
    | cons c cs =>
      simp only [rowMajor, List.length_flatMap, List.length_map, List.prod_cons]
      rw [ih cs (by simpa using h)]
      simp

theorem getElem?_flatMap_uniform {α β : Type} (l : List α) (f : α → List β) (k : Nat)
    (hf : ∀ a, (f a).length = k) (i j : Nat) (hj : j < k) :
    (l.flatMap f)[i * k + j]? = (l[i]?).bind fun a => (f a)[j]? := by
  induction l generalizing i with
  | nil => simp
  | cons a l ih =>
    rw [List.flatMap_cons]
    cases i with
    | zero =>
      rw [List.getElem?_append_left (by rw [hf]; omega)]
      simp
    | succ i =>
      rw [List.getElem?_append_right (by rw [hf, Nat.add_mul]; omega), hf]
      rw [show (i + 1) * k + j - k = i * k + j by rw [Nat.add_mul]; omega, ih]
      simp

/-- Row-major position of a coordinate. -/
theorem rowMajor_get (is cs xs : List Nat) (h : InBox is cs xs) :
    (rowMajor is cs)[linear (List.zipWith (fun x i => x - i) xs is) cs]? = some xs := by
  induction xs generalizing is cs with
  | nil => cases is <;> cases cs <;> simp_all [rowMajor, InBox, linear]
  | cons x xs ih =>
    cases is with
    | nil => cases cs <;> simp [InBox] at h
    | cons i is =>
      cases cs with
      | nil => simp [InBox] at h
      | cons c cs =>
        obtain ⟨⟨h1, h2⟩, h3⟩ := h
        have hlen : is.length = cs.length := by
          clear ih h1 h2
          induction is generalizing cs xs with
          | nil => cases cs <;> cases xs <;> simp_all [InBox]
          | cons a is ih =>
            cases cs with
            | nil => simp [InBox] at h3
            | cons b cs =>
              cases xs with
              | nil => simp [InBox] at h3
              | cons y xs => simp [ih xs cs h3.2]
        have hget := ih is cs h3
        simp only [rowMajor, List.zipWith_cons_cons, linear]
        have hlt : linear (List.zipWith (fun x i => x - i) xs is) cs < cs.prod := by
          have := (List.getElem?_eq_some_iff.1 hget).1
          rwa [rowMajor_length is cs hlen] at this
        rw [getElem?_flatMap_uniform _ _ cs.prod (by simp [rowMajor_length is cs hlen]) _ _ hlt]
        rw [List.getElem?_range' ]
        · simp [hget]; omega
        · omega

theorem linear_append (xs ds : List Nat) (x d : Nat) (h : xs.length = ds.length) :
    linear (xs ++ [x]) (ds ++ [d]) = linear xs ds * d + x := by
  induction xs generalizing ds with
  | nil => cases ds <;> simp_all [linear]
  | cons a xs ih =>
    cases ds with
    | nil => simp at h
    | cons b ds =>
      simp only [List.cons_append, linear, ih ds (by simpa using h), List.prod_append,
        List.prod_cons, List.prod_nil]
      ring

theorem rowMajor_append (is cs : List Nat) (i c : Nat) (h : is.length = cs.length) :
    rowMajor (is ++ [i]) (cs ++ [c])
      = (rowMajor is cs).flatMap fun r => (List.range' i c).map fun x => r ++ [x] := by
  induction is generalizing cs with
  | nil =>
    cases cs with
    | nil =>
      simp only [List.nil_append, rowMajor, List.flatMap_cons, List.flatMap_nil, List.map_cons,
        List.map_nil, List.append_nil]
      induction List.range' i c with
      | nil => rfl
      | cons a l ih => simp [ih]
    | cons => simp at h
  | cons a is ih =>
    cases cs with
    | nil => simp at h
    | cons b cs =>
      simp only [List.cons_append, rowMajor, ih cs (by simpa using h), List.flatMap_assoc]
      congr 1; funext x
      simp [List.map_flatMap, List.flatMap_map, Function.comp_def]

end Hidefix.Proofs
