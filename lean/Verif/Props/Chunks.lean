import Verif.Spec.Order
import Verif.Props.Demo

/-!
# Properties C29, C30, C31: chunks
-/

set_option autoImplicit false

namespace Hidefix.Props
open Hidefix Hidefix.Spec Hidefix.Proofs Outcome

/-! ## C29 -/

theorem lexLt_nil (a : List Nat) : ¬ LexLt a [] := by
  rintro ⟨j, _, hb, _⟩; simp at hb

theorem lexLt_cons {a b : Nat} {as bs : List Nat} :
    LexLt (a :: as) (b :: bs) ↔ a < b ∨ (a = b ∧ LexLt as bs) := by
  constructor
  · rintro ⟨j, ha, hb, hlt, heq⟩
    cases j with
    | zero => exact .inl hlt
    | succ j =>
      refine .inr ⟨heq 0 (by simp) (by simp) (by omega), j, by simpa using ha, by simpa using hb,
        by simpa using hlt, fun k ka kb hk => ?_⟩
      exact heq (k + 1) (by simpa using ka) (by simpa using kb) (by omega)
  · rintro (h | ⟨rfl, j, ha, hb, hlt, heq⟩)
    · exact ⟨0, by simp, by simp, h, fun k _ _ hk => by omega⟩
    · refine ⟨j + 1, by simpa, by simpa, by simpa, fun k ka kb hk => ?_⟩
      cases k with
      | zero => rfl
      | succ k => simpa using heq k (by simpa using ka) (by simpa using kb) (by omega)

theorem cmpOffsets_spec {a b : List Nat} (h : a.length = b.length) :
    (cmpOffsets a b = .lt ↔ LexLt a b) ∧ (cmpOffsets a b = .gt ↔ LexLt b a) ∧
    (cmpOffsets a b = .eq ↔ a = b) := by
  induction a generalizing b with
  | nil =>
    match b, h with
    | [], _ => simp [cmpOffsets, lexLt_nil]
  | cons x a ih =>
    match b, h with
    | y :: b, h =>
      obtain ⟨h1, h2, h3⟩ := ih (b := b) (by simpa using h)
      unfold cmpOffsets
      rcases Nat.lt_trichotomy x y with hlt | rfl | hlt
      · have : compare x y = .lt := Nat.compare_eq_lt.2 hlt
        simp only [this, lexLt_cons, List.cons.injEq]
        refine ⟨by simp [hlt], by simp; omega, by simp; omega⟩
      · have : compare x x = .eq := Nat.compare_eq_eq.2 rfl
        simp only [this, lexLt_cons, List.cons.injEq]
        refine ⟨by simp [h1], by simp [h2], by simp [h3]⟩
      · have : compare x y = .gt := Nat.compare_eq_gt.2 hlt
        simp only [this, lexLt_cons, List.cons.injEq]
        refine ⟨by simp; omega, by simp [hlt], by simp; omega⟩

/-- C29: chunks of the same dataset (same rank) are ordered by the lexicographic order of their grid
positions, and compare `Equal` exactly if their positions are equal. -/
theorem C29 (a b : Chunk) (h : a.offset.length = b.offset.length) :
    (a.cmp b = .lt ↔ LexLt a.offset b.offset) ∧ (a.cmp b = .gt ↔ LexLt b.offset a.offset) ∧
    (a.cmp b = .eq ↔ a.offset = b.offset) :=
  cmpOffsets_spec h

theorem lexLt_trans {a b c : List Nat} (h1 : a.length = b.length) (h2 : b.length = c.length)
    (hab : LexLt a b) (hbc : LexLt b c) : LexLt a c := by
  induction a generalizing b c with
  | nil => obtain ⟨j, ha, _⟩ := hab; simp at ha
  | cons x a ih =>
    match b, c, h1, h2 with
    | y :: b, z :: c, h1, h2 =>
      rw [lexLt_cons] at *
      rcases hab with h | ⟨rfl, h⟩
      · rcases hbc with h' | ⟨rfl, _⟩
        · exact .inl (by omega)
        · exact .inl h
      · rcases hbc with h' | ⟨rfl, h'⟩
        · exact .inl h'
        · exact .inr ⟨rfl, ih (by simpa using h1) (by simpa using h2) h h'⟩

/-- C29: the order is a total preorder: comparing in the other direction gives the opposite result, and
"not after" is transitive. -/
theorem C29_laws (a b c : Chunk) (h1 : a.offset.length = b.offset.length)
    (h2 : b.offset.length = c.offset.length) :
    b.cmp a = (a.cmp b).swap ∧ (a.cmp b ≠ .gt → b.cmp c ≠ .gt → a.cmp c ≠ .gt) ∧
    (a.cmp b = .lt → b.cmp c = .lt → a.cmp c = .lt) ∧ a.cmp a = .eq := by
  obtain ⟨p1, p2, p3⟩ := C29 a b h1
  obtain ⟨q1, q2, q3⟩ := C29 b a h1.symm
  obtain ⟨r1, r2, r3⟩ := C29 b c h2
  obtain ⟨s1, s2, s3⟩ := C29 a c (h1.trans h2)
  refine ⟨?_, fun ha hb hc => ?_, fun ha hb => ?_, (C29 a a rfl).2.2.2 rfl⟩
  · cases h : a.cmp b with
    | lt => rw [q2.2 (p1.1 h)]; rfl
    | eq => rw [q3.2 (p3.1 h).symm]; rfl
    | gt => rw [q1.2 (p2.1 h)]; rfl
  · have hca := s2.1 hc
    cases h : a.cmp b with
    | gt => exact ha h
    | eq => rw [p3.1 h] at hca; exact hb (r2.2 hca)
    | lt => exact hb (r2.2 (lexLt_trans (h1.trans h2).symm h1 hca (p1.1 h)))
  · exact s1.2 (lexLt_trans h1 h2 (p1.1 ha) (r1.1 hb))

/-- C29: equality and hash go by the address in the file: equal chunks have equal hashes. -/
theorem C29_eq (a b : Chunk) : (a.beq b = true ↔ a.addr = b.addr) ∧
    (a.beq b = true → a.hashKey = b.hashKey) := by
  simp [Chunk.beq, Chunk.hashKey]

/-- C29: so equality is not the equality of the ordering, in either direction. -/
theorem C29_eq_differs : (∃ a b : Chunk, a.offset.length = b.offset.length ∧ a.cmp b = .eq ∧
      a.beq b = false) ∧
    ∃ a b : Chunk, a.offset.length = b.offset.length ∧ a.cmp b ≠ .eq ∧ a.beq b = true :=
  ⟨⟨⟨1, 1, [0]⟩, ⟨2, 1, [0]⟩, by decide⟩, ⟨1, 1, [0]⟩, ⟨1, 1, [4]⟩, by decide⟩

/-! ## C30 -/

theorem firstOutside_cons {ab : Bool} {o d x : Nat} {os ds xs : List Nat} :
    FirstOutside ab (o :: os) (d :: ds) (x :: xs) ↔
      (if ab then o + d ≤ x else x < o) ∨
      ((o ≤ x ∧ x < o + d) ∧ FirstOutside ab os ds xs) := by
  constructor
  · rintro ⟨j, ho, hd, hx, hj, hk⟩
    cases j with
    | zero => exact .inl hj
    | succ j =>
      refine .inr ⟨hk 0 (by simp) (by simp) (by simp) (by omega), j, by simpa using ho,
        by simpa using hd, by simpa using hx, hj, fun k k1 k2 k3 hlt => ?_⟩
      exact hk (k + 1) (by simpa using k1) (by simpa using k2) (by simpa using k3) (by omega)
  · rintro (h | ⟨h, j, ho, hd, hx, hj, hk⟩)
    · exact ⟨0, by simp, by simp, by simp, h, fun k _ _ _ hk => by omega⟩
    · refine ⟨j + 1, by simpa, by simpa, by simpa, hj, fun k k1 k2 k3 hlt => ?_⟩
      cases k with
      | zero => exact h
      | succ k => exact hk k (by simpa using k1) (by simpa using k2) (by simpa using k3) (by omega)

theorem containsAux_spec {p : Profile} {x off cs : List Nat} (h1 : x.length = cs.length)
    (h2 : x.length = off.length) (hf : ∀ oc ∈ off.zip cs, oc.1 + oc.2 < W) :
    ∃ o, Chunk.containsAux p x off cs = ok o ∧ (o = .eq ↔ InBox off cs x) ∧
      (o = .lt ↔ FirstOutside false off cs x) ∧ (o = .gt ↔ FirstOutside true off cs x) := by
  induction x generalizing off cs with
  | nil =>
    match off, cs, h1, h2 with
    | [], [], _, _ => exact ⟨.eq, rfl, by simp [InBox], by simp [FirstOutside], by simp [FirstOutside]⟩
  | cons k x ih =>
    match off, cs, h1, h2 with
    | o :: off, c :: cs, h1, h2 =>
      obtain ⟨r, hr, r1, r2, r3⟩ := ih (off := off) (cs := cs) (by simpa using h1) (by simpa using h2)
        (fun oc hoc => hf oc (by simp [hoc]))
      have hoc : o + c < W := hf (o, c) (by simp)
      unfold Chunk.containsAux
      simp only [firstOutside_cons, InBox]
      by_cases hk : k < o
      · refine ⟨.lt, by rw [if_pos hk], ?_⟩
        simp; omega
      · rw [if_neg hk, add64_of_lt hoc, ok_bind]
        by_cases hk' : o + c ≤ k
        · refine ⟨.gt, by rw [if_pos hk'], ?_⟩
          simp; omega
        · rw [if_neg hk']
          refine ⟨r, hr, ?_⟩
          have : o ≤ k ∧ k < o + c := by omega
          simp [r1, r2, r3, hk, hk', this]

/-- C30: `contains` finds exactly the points in the chunk's box `Equal`, and others `Less` or `Greater`
according to the first dimension in which they are outside. Missing: chunks whose end is not a `u64`
(`not_C30`). -/
theorem C30_partial {p : Profile} (ch : Chunk) (cs x : List Nat) (h1 : x.length = cs.length)
    (h2 : x.length = ch.offset.length) (hf : ∀ oc ∈ ch.offset.zip cs, oc.1 + oc.2 < W) :
    ∃ o, ch.contains p x cs = ok o ∧ (o = .eq ↔ InBox ch.offset cs x) ∧
      (o = .lt ↔ FirstOutside false ch.offset cs x) ∧
      (o = .gt ↔ FirstOutside true ch.offset cs x) := by
  obtain ⟨o, h, h'⟩ := containsAux_spec (p := p) h1 h2 hf
  refine ⟨o, ?_, h'⟩
  unfold Chunk.contains assertP
  simp only [beq_iff_eq, h1, if_true, ok_bind, ← h2, h]

/-- C30: a point or a chunk shape of another rank is refused with a panic. -/
theorem C30_rank {p : Profile} (ch : Chunk) (cs x : List Nat)
    (h : x.length ≠ cs.length ∨ x.length ≠ ch.offset.length) :
    ch.contains p x cs = .panic .assertion := by
  unfold Chunk.contains assertP
  by_cases h1 : x.length = cs.length
  · have h2 : x.length ≠ ch.offset.length := by tauto
    simp [h1, h1 ▸ h2]
  · simp [h1]

/-- C30: on an aligned grid, `contains` compares the grid cell of the point with the chunk in the order
of the chunks (C29): binary search over sorted chunks with `contains` is sound. -/
theorem C30_grid {p : Profile} (ch : Chunk) (cs x : List Nat) (h1 : x.length = cs.length)
    (hp : ∀ c ∈ cs, 0 < c) (ha : Aligned cs ch.offset)
    (hf : ∀ oc ∈ ch.offset.zip cs, oc.1 + oc.2 < W) (addr size : Nat) :
    ch.contains p x cs = ok ((⟨addr, size, cellOf cs x⟩ : Chunk).cmp ch) := by
  obtain ⟨ha1, ha2⟩ := ha
  have h2 : x.length = ch.offset.length := by omega
  unfold Chunk.contains assertP
  simp only [beq_iff_eq, h1, ha1, if_true, ok_bind, Chunk.cmp]
  clear h2
  generalize ch.offset = off at *
  induction x generalizing off cs with
  | nil =>
    match cs, off, h1, ha1 with
    | [], [], _, _ => rfl
  | cons k x ih =>
    match cs, off, h1, ha1 with
    | c :: cs, o :: off, h1, ha1 =>
      have hc : 0 < c := hp c (by simp)
      obtain ⟨q, hq0⟩ : c ∣ o := ha2 (o, c) (by simp)
      subst hq0
      have hoc : c * q + c < W := hf (c * q, c) (by simp)
      have ih' := ih cs (by simpa using h1) (fun c hc => hp c (by simp [hc])) off
        (fun oc h => hf oc (by simp [h])) (by simpa using ha1) (fun oc h => ha2 oc (by simp [h]))
      have hcell : cellOf (c :: cs) (k :: x) = k / c * c :: cellOf cs x := rfl
      rw [hcell]
      unfold Chunk.containsAux cmpOffsets
      have hm := Nat.div_add_mod k c
      have hlt := Nat.mod_lt k hc
      by_cases hk : k < c * q
      · rw [if_pos hk]
        have : compare (k / c * c) (c * q) = .lt := by
          rw [Nat.compare_eq_lt]
          have := Nat.div_mul_le_self k c
          omega
        simp only [this]
      · rw [if_neg hk, add64_of_lt hoc, ok_bind]
        have hq : q ≤ k / c := (Nat.le_div_iff_mul_le hc).2 (by rw [Nat.mul_comm]; omega)
        by_cases hk' : c * q + c ≤ k
        · rw [if_pos hk']
          have : compare (k / c * c) (c * q) = .gt := by
            rw [Nat.compare_eq_gt]
            have : q + 1 ≤ k / c := (Nat.le_div_iff_mul_le hc).2 (by
              rw [Nat.add_mul, Nat.mul_comm q, Nat.one_mul]; omega)
            have := Nat.mul_le_mul_right c this
            rw [Nat.add_mul, Nat.mul_comm q c] at this
            omega
          simp only [this]
        · rw [if_neg hk', ih']
          have : k / c = q := by
            refine Nat.le_antisymm ?_ hq
            rw [← Nat.lt_succ_iff, Nat.div_lt_iff_lt_mul hc, Nat.succ_mul, Nat.mul_comm q]
            omega
          have : compare (k / c * c) (c * q) = .eq := by
            rw [Nat.compare_eq_eq, this, Nat.mul_comm]
          simp only [this]

/-- C30 fails where the end of the chunk is not a `u64`: debug builds panic, release builds wrap around
and find a point of the chunk to be after it. -/
theorem not_C30 : ∃ (ch : Chunk) (cs x : List Nat), (∀ k ∈ x, k < W) ∧ InBox ch.offset cs x ∧
    ch.contains .debug x cs = .panic .overflow ∧ ch.contains .release x cs = ok .gt :=
  ⟨⟨0, 1, [W - 1]⟩, [10], [W - 1], by simp [W], by simp [InBox], by decide, by decide⟩

example : ∃ (ch : Chunk) (cs x : List Nat), x.length = cs.length ∧ (∀ c ∈ cs, 0 < c) ∧
    Aligned cs ch.offset ∧ (∀ oc ∈ ch.offset.zip cs, oc.1 + oc.2 < W) ∧
    ch.contains .debug x cs = ok .lt :=
  ⟨⟨0, 1, [10, 20]⟩, [10, 10], [19, 5], by decide, by decide,
    ⟨by decide, by decide⟩, by decide, by decide⟩

/-! ## C31 -/

theorem asU64s_length (c : Chunk) : c.asU64s.length = c.offset.length + 2 := by
  simp [Chunk.asU64s]

/-- C31: a chunk read back from its words is the chunk; words of any other number are refused. -/
theorem C31_one (D : Nat) : (∀ c : Chunk, c.offset.length = D → Chunk.fromU64s D c.asU64s = ok c) ∧
    (∀ l : List Nat, l.length = D + 2 → ∃ c, Chunk.fromU64s D l = ok c ∧ c.offset.length = D ∧
      c.asU64s = l) ∧
    (∀ l : List Nat, l.length ≠ D + 2 → Chunk.fromU64s D l = .panic .assertion) := by
  refine ⟨fun c h => ?_, fun l h => ?_, fun l h => ?_⟩
  · unfold Chunk.fromU64s assertP
    simp [h, Chunk.asU64s]
  · match l, h with
    | a :: s :: o, h =>
      refine ⟨⟨a, s, o⟩, ?_, by simpa using h, rfl⟩
      unfold Chunk.fromU64s assertP
      simp at h
      simp [h]
  · unfold Chunk.fromU64s assertP
    simp [h]

theorem sliceAux_flat (D : Nat) (cs : List Chunk) (h : ∀ c ∈ cs, c.offset.length = D) :
    Chunk.sliceAux D cs.length (Chunk.sliceAsU64s cs) = cs := by
  induction cs with
  | nil => rfl
  | cons c cs ih =>
    have hc : c.asU64s.length = D + 2 := by rw [asU64s_length, h c (by simp)]
    have e : Chunk.sliceAsU64s (c :: cs) = c.asU64s ++ Chunk.sliceAsU64s cs := rfl
    have e1 : (c.asU64s ++ Chunk.sliceAsU64s cs).take (D + 2) = c.asU64s := List.take_left' hc
    have e2 : (c.asU64s ++ Chunk.sliceAsU64s cs).drop (D + 2) = Chunk.sliceAsU64s cs :=
      List.drop_left' hc
    rw [e, List.length_cons]
    unfold Chunk.sliceAux
    rw [e1, e2, ih fun c hc => h c (by simp [hc])]
    rfl

theorem sliceAux_spec (D n : Nat) (l : List Nat) (h : l.length = n * (D + 2)) :
    (∀ c ∈ Chunk.sliceAux D n l, c.offset.length = D) ∧
    (Chunk.sliceAux D n l).length = n ∧ Chunk.sliceAsU64s (Chunk.sliceAux D n l) = l := by
  induction n generalizing l with
  | zero =>
    have : l = [] := by simpa using h
    subst this
    exact ⟨by simp [Chunk.sliceAux], rfl, rfl⟩
  | succ n ih =>
    rw [Nat.succ_mul] at h
    obtain ⟨h1, h2, h3⟩ := ih (l.drop (D + 2)) (by simp; omega)
    have hl : (l.take (D + 2)).length = D + 2 := by simp; omega
    unfold Chunk.sliceAux
    refine ⟨?_, by simp [h2], ?_⟩
    · intro c hc
      rcases List.mem_cons.1 hc with rfl | hc
      · simp; omega
      · exact h1 c hc
    · have e : ∀ (c : Chunk) cs, Chunk.sliceAsU64s (c :: cs) = c.asU64s ++ Chunk.sliceAsU64s cs :=
        fun _ _ => rfl
      rw [e, h3]
      conv => rhs; rw [← List.take_append_drop (D + 2) l]
      congr 1
      generalize l.take (D + 2) = t at hl
      match t, hl with
      | a :: s :: o, _ => rfl

/-- C31: the word view of a list of chunks is lossless in both directions, and word lists whose length
is not a multiple of the chunk's are refused. -/
theorem C31 (D : Nat) :
    (∀ cs : List Chunk, (∀ c ∈ cs, c.offset.length = D) →
      Chunk.sliceFromU64s D (Chunk.sliceAsU64s cs) = ok cs) ∧
    (∀ l : List Nat, (D + 2) ∣ l.length → ∃ cs, Chunk.sliceFromU64s D l = ok cs ∧
      (∀ c ∈ cs, c.offset.length = D) ∧ Chunk.sliceAsU64s cs = l) ∧
    (∀ l : List Nat, ¬ (D + 2) ∣ l.length → Chunk.sliceFromU64s D l = .panic .assertion) := by
  refine ⟨fun cs h => ?_, fun l h => ?_, fun l h => ?_⟩
  · have hlen : (Chunk.sliceAsU64s cs).length = cs.length * (D + 2) := by
      clear * - h
      induction cs with
      | nil => simp [Chunk.sliceAsU64s]
      | cons c cs ih =>
        have e : Chunk.sliceAsU64s (c :: cs) = c.asU64s ++ Chunk.sliceAsU64s cs := rfl
        rw [e, List.length_append, asU64s_length, h c (by simp), ih fun c hc => h c (by simp [hc]),
          List.length_cons, Nat.succ_mul]
        omega
    unfold Chunk.sliceFromU64s assertP
    rw [hlen, Nat.mul_mod_left, Nat.mul_div_cancel _ (by omega)]
    simp only [beq_self_eq_true, if_true, ok_bind]
    rw [sliceAux_flat D cs h]
  · obtain ⟨n, hn⟩ := h
    have hn' : l.length = n * (D + 2) := by rw [hn, Nat.mul_comm]
    obtain ⟨h1, -, h3⟩ := sliceAux_spec D n l hn'
    refine ⟨_, ?_, h1, h3⟩
    unfold Chunk.sliceFromU64s assertP
    rw [hn', Nat.mul_mod_left, Nat.mul_div_cancel _ (by omega)]
    simp only [beq_self_eq_true, if_true, ok_bind]
  · unfold Chunk.sliceFromU64s assertP
    have : ¬ l.length % (D + 2) = 0 := fun h' => h (Nat.dvd_of_mod_eq_zero h')
    simp [this]

example : Chunk.sliceFromU64s 2 [2, 7, 10, 10, 3, 17, 20, 20] =
    ok [⟨2, 7, [10, 10]⟩, ⟨3, 17, [20, 20]⟩] := by decide

end Hidefix.Props
