import Verif.Proofs.WalkTop
import Verif.Proofs.BigEndian

/-!
# From innermost-first positions to the lists of the code
-/

namespace Hidefix.Proofs
open Hidefix Hidefix.Spec Outcome

/-- Offset of the chunk holding the `n`-th element. -/
def coffs : List Dim → Nat → List Nat
  | [], _ => []
  | d :: L, n => d.coff (n % d.cnt) :: coffs L (n / d.cnt)

theorem digits_length (L : List Dim) (n : Nat) : (digits L n).length = L.length := by
  induction L generalizing n with
  | nil => rfl
  | cons d L ih => simp [digits, ih]

theorem coords_length (L : List Dim) (n : Nat) : (coords L n).length = L.length := by
  induction L generalizing n with
  | nil => rfl
  | cons d L ih => simp [coords, ih]

theorem cell_length (L : List Dim) (n : Nat) : (cell L n).length = L.length := by
  induction L generalizing n with
  | nil => rfl
  | cons d L ih => simp [cell, ih]

theorem coffs_length (L : List Dim) (n : Nat) : (coffs L n).length = L.length := by
  induction L generalizing n with
  | nil => rfl
  | cons d L ih => simp [coffs, ih]

theorem coords_eq (L : List Dim) (n : Nat) :
    List.zipWith (fun i o => i + o) (L.map Dim.idx) (digits L n) = coords L n := by
  induction L generalizing n with
  | nil => rfl
  | cons d L ih => simp [coords, digits, ih]

theorem cell_eq (L : List Dim) (n : Nat) :
    List.zipWith (fun x c => x / c) (coords L n) (L.map Dim.cs) = cell L n := by
  induction L generalizing n with
  | nil => rfl
  | cons d L ih => simp [coords, cell, ih]

theorem coffs_eq (L : List Dim) (n : Nat) :
    List.zipWith (fun a c => a * c) (cell L n) (L.map Dim.cs) = coffs L n := by
  induction L generalizing n with
  | nil => rfl
  | cons d L ih => simp [coffs, cell, ih, Dim.coff]

theorem zipWith_rev {α β γ : Type} (f : α → β → γ) (a : List α) (b : List β)
    (h : a.length = b.length) :
    List.zipWith f a.reverse b.reverse = (List.zipWith f a b).reverse := by
  induction a generalizing b with
  | nil => cases b <;> simp_all
  | cons x a ih =>
    cases b with
    | nil => simp at h
    | cons y b =>
      have h' : a.length = b.length := by simpa using h
      simp [List.zipWith_append, ih b h', h']

theorem inBox_append {os ds xs : List Nat} {o d x : Nat} (h : InBox os ds xs)
    (hx : o ≤ x ∧ x < o + d) : InBox (os ++ [o]) (ds ++ [d]) (xs ++ [x]) := by
  induction xs generalizing os ds with
  | nil => cases os <;> cases ds <;> simp_all [InBox]
  | cons y xs ih =>
    cases os with
    | nil => cases ds <;> simp [InBox] at h
    | cons o' os =>
      cases ds with
      | nil => simp [InBox] at h
      | cons d' ds => exact ⟨h.1, ih h.2⟩

theorem allLt_append {xs ds : List Nat} {x d : Nat} (h : AllLt xs ds) (hx : x < d) :
    AllLt (xs ++ [x]) (ds ++ [d]) := by
  induction xs generalizing ds with
  | nil => cases ds <;> simp_all [AllLt]
  | cons y xs ih =>
    cases ds with
    | nil => simp [AllLt] at h
    | cons d' ds => exact ⟨h.1, ih h.2⟩

/-- Number of grid cells of a dimension. -/
def gdim (d : Dim) : Nat := (d.shp + d.cs - 1) / d.cs

theorem inBox_coords (L : List Dim) (hL : ∀ d ∈ L, DimOk d) (n : Nat) :
    InBox (coffs L n).reverse (L.map Dim.cs).reverse (coords L n).reverse := by
  induction L generalizing n with
  | nil => trivial
  | cons d L ih =>
    simp only [coffs, List.map_cons, coords, List.reverse_cons]
    have hd := hL d (by simp)
    obtain ⟨h1, h2, -⟩ := dim_facts hd (Nat.mod_lt n hd.cnt)
    exact inBox_append (ih (fun x hx => hL x (by simp [hx])) _) ⟨h1, h2⟩

theorem inBox_sel (L : List Dim) (hL : ∀ d ∈ L, DimOk d) (n : Nat) :
    InBox (L.map Dim.idx).reverse (L.map Dim.cnt).reverse (coords L n).reverse := by
  induction L generalizing n with
  | nil => trivial
  | cons d L ih =>
    simp only [List.map_cons, coords, List.reverse_cons]
    have hd := hL d (by simp)
    have := Nat.mod_lt n hd.cnt
    exact inBox_append (ih (fun x hx => hL x (by simp [hx])) _) (by omega)

theorem allLt_cell (L : List Dim) (hL : ∀ d ∈ L, DimOk d) (n : Nat) :
    AllLt (cell L n).reverse (L.map gdim).reverse := by
  induction L generalizing n with
  | nil => trivial
  | cons d L ih =>
    simp only [List.map_cons, cell, List.reverse_cons]
    have hd := hL d (by simp)
    have h1 := Nat.mod_lt n hd.cnt
    refine allLt_append (ih (fun x hx => hL x (by simp [hx])) _) ?_
    have := hd.fit
    have hcs := hd.cs
    unfold gdim
    rw [Nat.div_lt_iff_lt_mul hcs]
    have h3 : d.shp ≤ (d.shp + d.cs - 1) / d.cs * d.cs := by
      have a1 := Nat.div_add_mod (d.shp + d.cs - 1) d.cs
      have a2 := Nat.mod_lt (d.shp + d.cs - 1) hcs
      rw [Nat.mul_comm]; omega
    omega

theorem inBox_zeros {xs ds : List Nat} (h : AllLt xs ds) : InBox (ds.map fun _ => 0) ds xs := by
  induction xs generalizing ds with
  | nil => cases ds <;> simp_all [AllLt, InBox]
  | cons y xs ih =>
    cases ds with
    | nil => simp [AllLt] at h
    | cons d' ds => exact ⟨⟨Nat.zero_le _, by have := h.1; omega⟩, ih h.2⟩

theorem zipWith_sub_zeros (xs : List Nat) {β : Type} (l : List β) (h : xs.length = l.length) :
    List.zipWith (fun x i => x - i) xs (l.map fun _ => 0) = xs := by
  induction xs generalizing l with
  | nil => simp
  | cons y xs ih =>
    cases l with
    | nil => simp at h
    | cons a l =>
      rw [List.map_cons, List.zipWith_cons_cons, ih l (by simpa using h)]; rfl

theorem pos_linear (L : List Dim) (hL : ∀ d ∈ L, DimOk d) (n : Nat) :
    linear (List.zipWith (fun x o => x - o) (coords L n).reverse (coffs L n).reverse)
      (L.map Dim.cs).reverse = pos L n := by
  induction L generalizing n with
  | nil => rfl
  | cons d L ih =>
    have hl : (coords L (n / d.cnt)).length = (coffs L (n / d.cnt)).length := by
      rw [coords_length, coffs_length]
    simp only [coffs, List.map_cons, coords, List.reverse_cons, pos]
    rw [List.zipWith_append (by simp [hl])]
    simp only [List.zipWith_cons_cons, List.zipWith_nil_right]
    rw [linear_append _ _ _ _ (by simp [hl, coffs_length]), ih (fun x hx => hL x (by simp [hx]))]
    have : d.idx + n % d.cnt - d.coff (n % d.cnt) = (d.idx + n % d.cnt) % d.cs := by
      unfold Dim.coff
      have := Nat.mod_add_div (d.idx + n % d.cnt) d.cs
      rw [Nat.mul_comm] at this; omega
    rw [this, Nat.mul_comm]; omega

theorem pos_lt (L : List Dim) (hL : ∀ d ∈ L, DimOk d) (n : Nat) :
    pos L n < (L.map Dim.cs).prod := by
  induction L generalizing n with
  | nil => simp [pos]
  | cons d L ih =>
    have := ih (fun x hx => hL x (by simp [hx])) (n / d.cnt)
    have hcs := (hL d (by simp)).cs
    have := Nat.mod_lt (d.idx + n % d.cnt) hcs
    simp only [pos, List.map_cons, List.prod_cons]
    have h : d.cs * (pos L (n / d.cnt) + 1) ≤ d.cs * (L.map Dim.cs).prod :=
      Nat.mul_le_mul_left _ (by omega)
    rw [Nat.mul_add] at h; omega

theorem coffs_edge (L : List Dim) (hL : ∀ d ∈ L, DimOk d) (n : Nat) :
    ∀ t ∈ (coffs L n).reverse.zip (L.map Dim.cs).reverse, t.1 + t.2 < W := by
  intro t ht
  rw [List.zip, zipWith_rev _ _ _ (by simp [coffs_length]), List.mem_reverse] at ht
  induction L generalizing n with
  | nil => simp [coffs] at ht
  | cons d L ih =>
    simp only [coffs, List.map_cons, List.zipWith_cons_cons, List.mem_cons] at ht
    rcases ht with rfl | ht
    · have hd := hL d (by simp)
      exact (dim_facts hd (Nat.mod_lt n hd.cnt)).2.2.1
    · exact ih (fun x hx => hL x (by simp [hx])) _ ht

theorem containsAux_eq (p : Profile) {xs os cs : List Nat} (h : InBox os cs xs)
    (he : ∀ t ∈ os.zip cs, t.1 + t.2 < W) : Chunk.containsAux p xs os cs = ok .eq := by
  induction xs generalizing os cs with
  | nil => cases os <;> cases cs <;> simp_all [InBox, Chunk.containsAux]
  | cons x xs ih =>
    cases os with
    | nil => cases cs <;> simp [InBox] at h
    | cons o os =>
      cases cs with
      | nil => simp [InBox] at h
      | cons c cs =>
        obtain ⟨⟨h1, h2⟩, h3⟩ := h
        simp only [Chunk.containsAux]
        rw [if_neg (by omega), add64_of_lt (he (o, c) (by simp))]
        simp only [ok_bind]
        rw [if_neg (by omega)]
        exact ih h3 fun t ht => he t (by simp only [List.zip_cons_cons, List.mem_cons]; exact .inr ht)

theorem addAll_ok (p : Profile) (a b : List Nat) (h : ∀ t ∈ a.zip b, t.1 + t.2 < W) :
    addAll p a b = ok (List.zipWith (fun i o => i + o) a b) := by
  induction a generalizing b with
  | nil => rfl
  | cons x a ih =>
    cases b with
    | nil => rfl
    | cons y b =>
      simp only [addAll]
      rw [add64_of_lt (h (x, y) (by simp)), ok_bind,
        ih b fun t ht => h t (by simp only [List.zip_cons_cons, List.mem_cons]; exact .inr ht)]
      rfl

theorem addAll_digits (p : Profile) (L : List Dim) (hL : ∀ d ∈ L, DimOk d) (n : Nat) :
    addAll p (L.map Dim.idx).reverse (digits L n).reverse = ok (coords L n).reverse := by
  rw [addAll_ok, zipWith_rev _ _ _ (by simp [digits_length]), coords_eq]
  intro t ht
  rw [List.zip, zipWith_rev _ _ _ (by simp [digits_length]), List.mem_reverse] at ht
  induction L generalizing n with
  | nil => simp [digits] at ht
  | cons d L ih =>
    simp only [digits, List.map_cons, List.zipWith_cons_cons, List.mem_cons] at ht
    rcases ht with rfl | ht
    · have hd := hL d (by simp)
      have := Nat.mod_lt n hd.cnt
      have := hd.fit
      have := hd.edge
      have := hd.cs
      show d.idx + n % d.cnt < W
      omega
    · exact ih (fun x hx => hL x (by simp [hx])) _ ht

theorem stridesOf_append (l : List Nat) (c : Nat) :
    stridesOf (l ++ [c]) = (stridesOf l).map (fun s => s * c) ++ [1] := by
  induction l with
  | nil => rfl
  | cons a l ih => simp [stridesOf, ih]

theorem mkLanes_append {k : Nat} (is os ns fs cs ds ss : List Nat) (i o n f c d s : Nat)
    (h1 : is.length = k) (h2 : os.length = k) (h3 : ns.length = k) (h4 : fs.length = k)
    (h5 : cs.length = k) (h6 : ds.length = k) (h7 : ss.length = k) :
    mkLanes (is ++ [i]) (os ++ [o]) (ns ++ [n]) (fs ++ [f]) (cs ++ [c]) (ds ++ [d]) (ss ++ [s])
      = mkLanes is os ns fs cs ds ss ++ [⟨i, o, n, f, c, d, s⟩] := by
  induction k generalizing is os ns fs cs ds ss with
  | zero =>
    simp only [List.length_eq_zero_iff] at *
    subst h1 h2 h3 h4 h5 h6 h7
    rfl
  | succ k ih =>
    match is, os, ns, fs, cs, ds, ss, h1, h2, h3, h4, h5, h6, h7 with
    | _ :: _, _ :: _, _ :: _, _ :: _, _ :: _, _ :: _, _ :: _, h1, h2, h3, h4, h5, h6, h7 =>
      simp only [List.length_cons, Nat.add_right_cancel_iff] at *
      simp only [List.cons_append, mkLanes]
      rw [ih _ _ _ _ _ _ _ h1 h2 h3 h4 h5 h6 h7]

theorem mkLanes_eq (S : Nat) (L : List Dim) (n : Nat) :
    (mkLanes (L.map Dim.idx).reverse (digits L n).reverse (L.map Dim.cnt).reverse
      (coffs L n).reverse (L.map Dim.cs).reverse
      ((stridesOf (L.map Dim.cs).reverse).map fun s => S * s) (L.map Dim.shp).reverse).reverse
      = lanesAt S L n := by
  induction L generalizing S n with
  | nil => rfl
  | cons d L ih =>
    simp only [List.map_cons, digits, coffs, List.reverse_cons, stridesOf_append, List.map_append,
      List.map_map, List.map_nil, Nat.mul_one]
    rw [mkLanes_append (k := L.length) _ _ _ _ _ _ _ _ _ _ _ _ _ _ (by simp)
      (by simp [digits_length]) (by simp) (by simp [coffs_length]) (by simp)
      (by simp [stridesOf_length]) (by simp)]
    simp only [List.reverse_append, List.reverse_cons, List.reverse_nil, List.nil_append,
      List.singleton_append, lanesAt]
    rw [← ih (S * d.cs) (n / d.cnt)]
    have : ((fun s => S * s) ∘ fun s => s * d.cs) = fun s => S * d.cs * s := by
      funext s; simp only [Function.comp_def]; ring
    rw [this]

theorem product64_ok (p : Profile) (l : List Nat) (hp : ∀ c ∈ l, 0 < c) (h : l.prod < W) :
    product64 p l = ok l.prod := by
  suffices H : ∀ (acc : Nat), acc * l.prod < W →
      l.foldlM (fun acc c => mul64 p acc c) acc = ok (acc * l.prod) by
    have := H 1 (by omega)
    simpa [product64] using this
  clear h
  induction l with
  | nil => intro acc _; simp
  | cons a l ih =>
    intro acc h
    have hpos : 0 < l.prod := prod_pos fun c hc => hp c (by simp [hc])
    rw [List.prod_cons, ← Nat.mul_assoc] at h ⊢
    have h1 : acc * a < W := by
      have : acc * a * 1 ≤ acc * a * l.prod := Nat.mul_le_mul_left _ hpos
      omega
    rw [List.foldlM_cons, mul64_of_lt h1, ok_bind]
    exact ih (fun c hc => hp c (by simp [hc])) _ h

theorem range_mul_flatMap {α : Type} (k m : Nat) (f : Nat → α) :
    ((List.range m).flatMap fun q => (List.range k).map fun r => f (q * k + r))
      = (List.range (k * m)).map f := by
  induction m with
  | zero => simp
  | succ m ih =>
    rw [List.range_succ, List.flatMap_append, ih, Nat.mul_add, Nat.mul_one, List.range_add]
    simp [Nat.mul_comm k m]

theorem rowMajor_eq (L : List Dim) (hL : ∀ d ∈ L, DimOk d) :
    rowMajor (L.map Dim.idx).reverse (L.map Dim.cnt).reverse
      = (List.range (tot L)).map fun n => (coords L n).reverse := by
  induction L with
  | nil => simp [rowMajor, tot, coords]
  | cons d L ih =>
    simp only [List.map_cons, List.reverse_cons, tot_cons, coords]
    rw [rowMajor_append _ _ _ _ (by simp), ih fun x hx => hL x (by simp [hx]),
      ← range_mul_flatMap, List.flatMap_map]
    have hcnt := (hL d (by simp)).cnt
    congr 1; funext q
    rw [List.range'_eq_map_range, List.map_map]
    apply List.map_congr_left
    intro r hr
    have hr : r < d.cnt := by simpa using hr
    simp only [Function.comp_def]
    rw [show q * d.cnt + r = r + d.cnt * q by ring, Nat.add_mul_div_left _ _ hcnt,
      Nat.add_mul_mod_self_left, Nat.div_eq_of_lt hr, Nat.mod_eq_of_lt hr, Nat.zero_add]

/-- `dimsOf` lists the dimensions innermost first. -/
theorem dimsOf_maps (is ns cs ss : List Nat) (h1 : is.length = ss.length)
    (h2 : ns.length = ss.length) (h3 : cs.length = ss.length) :
    is = ((dimsOf is ns cs ss).map Dim.idx).reverse ∧
    ns = ((dimsOf is ns cs ss).map Dim.cnt).reverse ∧
    cs = ((dimsOf is ns cs ss).map Dim.cs).reverse ∧
    ss = ((dimsOf is ns cs ss).map Dim.shp).reverse := by
  induction ss generalizing is ns cs with
  | nil =>
    simp only [List.length_nil, List.length_eq_zero_iff] at *
    subst h1 h2 h3; simp [dimsOf]
  | cons s ss ih =>
    match is, ns, cs, h1, h2, h3 with
    | i :: is, n :: ns, c :: cs, h1, h2, h3 =>
      simp only [List.length_cons, Nat.add_right_cancel_iff] at *
      obtain ⟨e1, e2, e3, e4⟩ := ih is ns cs h1 h2 h3
      simp only [dimsOf, List.map_append, List.map_cons, List.map_nil, List.reverse_append,
        List.reverse_cons, List.reverse_nil, List.nil_append, List.singleton_append,
        List.cons.injEq, true_and]
      exact ⟨e1, e2, e3, e4⟩

theorem dimsOf_ok (is ns cs ss : List Nat) (h1 : is.length = ss.length)
    (h2 : ns.length = ss.length) (h3 : cs.length = ss.length)
    (hb : ∀ t ∈ is.zip (ns.zip ss), 0 < t.2.1 ∧ t.1 + t.2.1 ≤ t.2.2)
    (hpos : ∀ c ∈ cs, 0 < c) (he : ∀ sc ∈ ss.zip cs, sc.1 + sc.2 ≤ W) :
    ∀ d ∈ dimsOf is ns cs ss, DimOk d := by
  induction ss generalizing is ns cs with
  | nil =>
    simp only [List.length_nil, List.length_eq_zero_iff] at *
    subst h1 h2 h3; simp [dimsOf]
  | cons s ss ih =>
    match is, ns, cs, h1, h2, h3 with
    | i :: is, n :: ns, c :: cs, h1, h2, h3 =>
      simp only [List.length_cons, Nat.add_right_cancel_iff, List.zip_cons_cons, List.mem_cons,
        forall_eq_or_imp] at *
      simp only [dimsOf, List.mem_append, List.mem_singleton]
      rintro d (hd | rfl)
      · exact ih is ns cs h1 h2 h3 hb.2 hpos.2 he.2 d hd
      · exact ⟨hb.1.1, hpos.1, hb.1.2, he.1⟩

end Hidefix.Proofs
