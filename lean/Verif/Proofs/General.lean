import Verif.Proofs.Slices

/-!
# The slicer on arbitrary datasets
-/

namespace Hidefix.Proofs
open Hidefix Hidefix.Spec Outcome

theorem add64_debug {a b c : Nat} (h : add64 .debug a b = ok c) : c = a + b ∧ a + b < W := by
  unfold add64 at h
  split at h
  · exact ⟨(Outcome.ok.inj h).symm, by assumption⟩
  · simp at h

theorem sub64_debug {a b c : Nat} (h : sub64 .debug a b = ok c) : c = a - b ∧ b ≤ a := by
  unfold sub64 at h
  split at h
  · exact ⟨(Outcome.ok.inj h).symm, by assumption⟩
  · simp at h

theorem mul64_debug {a b c : Nat} (h : mul64 .debug a b = ok c) : c = a * b ∧ a * b < W := by
  unfold mul64 at h
  split at h
  · exact ⟨(Outcome.ok.inj h).symm, by assumption⟩
  · simp at h

theorem debugAssert_debug {b : Bool} {u : Unit} (h : debugAssert .debug b = ok u) : b = true := by
  cases b <;> simp_all [debugAssert]

/-- In debug builds the main loop advances the destination and the chunk position by the same
amount, and never past the end of the selection. -/
theorem walk_debug (stop : Nat) (ls : List Lane) (carry adv soff : Nat) (w : WalkOut)
    (h : walk .debug stop carry adv soff ls = ok w) :
    adv ≤ w.adv ∧ w.soff = soff + (w.adv - adv) ∧ (soff ≤ stop → w.soff ≤ stop) := by
  induction ls generalizing carry adv soff w with
  | nil =>
    simp only [walk] at h
    obtain rfl := Outcome.ok.inj h
    simp
  | cons l ls ih =>
    simp only [walk] at h
    obtain ⟨csz, -, h⟩ := bind_eq_ok.1 h
    obtain ⟨o, -, h⟩ := bind_eq_ok.1 h
    split at h
    · obtain ⟨r, hr, h⟩ := bind_eq_ok.1 h
      obtain rfl := Outcome.ok.inj h
      obtain ⟨i1, i2, i3⟩ := ih _ _ _ r hr
      exact ⟨i1, i2, i3⟩
    · obtain ⟨_, -, h⟩ := bind_eq_ok.1 h
      obtain ⟨ce, -, h⟩ := bind_eq_ok.1 h
      obtain ⟨cce, -, h⟩ := bind_eq_ok.1 h
      obtain ⟨d, -, h⟩ := bind_eq_ok.1 h
      obtain ⟨diff, -, h⟩ := bind_eq_ok.1 h
      obtain ⟨adv', ha, h⟩ := bind_eq_ok.1 h
      obtain ⟨soff', hs, h⟩ := bind_eq_ok.1 h
      obtain ⟨c2, -, h⟩ := bind_eq_ok.1 h
      obtain ⟨rfl, -⟩ := add64_debug ha
      obtain ⟨rfl, -⟩ := add64_debug hs
      split at h
      · rename_i hc
        obtain ⟨r, hr, h⟩ := bind_eq_ok.1 h
        obtain rfl := Outcome.ok.inj h
        obtain ⟨i1, i2, i3⟩ := ih _ _ _ _ hr
        refine ⟨by simp only; omega, by simp only; omega, fun _ => i3 (by omega)⟩
      · obtain ⟨_, hd, h⟩ := bind_eq_ok.1 h
        obtain ⟨_, -, h⟩ := bind_eq_ok.1 h
        obtain rfl := Outcome.ok.inj h
        have := debugAssert_debug hd
        simp only [decide_eq_true_eq] at this
        refine ⟨by simp only; omega, by simp only; omega, fun _ => this⟩

theorem index_mem {α : Type} {l : List α} {i : Nat} {a : α} (h : index l i = ok a) : a ∈ l := by
  unfold index at h
  split at h
  · rename_i b hb
    obtain rfl := Outcome.ok.inj h
    exact List.mem_of_getElem? hb
  · simp at h

theorem product64_debug {l : List Nat} {n : Nat} (h : product64 .debug l = ok n) : n = l.prod := by
  suffices H : ∀ acc n, l.foldlM (fun acc c => mul64 .debug acc c) acc = ok n →
      n = acc * l.prod by
    simpa using H 1 n h
  clear h
  induction l with
  | nil => intro acc n h; simpa using h.symm
  | cons a l ih =>
    intro acc n h
    rw [List.foldlM_cons] at h
    obtain ⟨m, hm, h⟩ := bind_eq_ok.1 h
    obtain ⟨rfl, -⟩ := mul64_debug hm
    rw [ih _ _ h, List.prod_cons, Nat.mul_assoc]

/-- Chunks of items belong to the dataset (any profile). -/
theorem next_chunk_mem {p : Profile} {ds : Dataset} {s s' : Slicer} {it : Item}
    (h : s.next p ds = ok (some (it, s'))) : it.chunk ∈ ds.chunks := by
  unfold Slicer.next at h
  split at h
  · simp at h
  split at h
  · obtain ⟨_, -, h⟩ := bind_eq_ok.1 h
    obtain ⟨_, -, h⟩ := bind_eq_ok.1 h
    obtain ⟨c, hc, h⟩ := bind_eq_ok.1 h
    have h := Option.some.inj (Outcome.ok.inj h)
    have h := (Prod.mk.inj h).1
    rw [← h]; exact index_mem hc
  · obtain ⟨st, -, h⟩ := bind_eq_ok.1 h
    obtain ⟨c, hc, h⟩ := bind_eq_ok.1 h
    have hm : c ∈ ds.chunks := by
      unfold Dataset.chunkAtCoord at hc
      obtain ⟨_, -, hc⟩ := bind_eq_ok.1 hc
      obtain ⟨_, -, hc⟩ := bind_eq_ok.1 hc
      obtain ⟨_, -, hc⟩ := bind_eq_ok.1 hc
      exact index_mem hc
    cases p with
    | debug =>
      obtain ⟨_, -, h⟩ := bind_eq_ok.1 h
      obtain ⟨_, -, h⟩ := bind_eq_ok.1 h
      obtain ⟨_, -, h⟩ := bind_eq_ok.1 h
      obtain ⟨_, -, h⟩ := bind_eq_ok.1 h
      obtain ⟨_, -, h⟩ := bind_eq_ok.1 h
      obtain ⟨_, -, h⟩ := bind_eq_ok.1 h
      obtain ⟨_, -, h⟩ := bind_eq_ok.1 h
      obtain ⟨_, -, h⟩ := bind_eq_ok.1 h
      have h := (Prod.mk.inj (Option.some.inj (Outcome.ok.inj h))).1
      rw [← h]; exact hm
    | release =>
      obtain ⟨_, -, h⟩ := bind_eq_ok.1 h
      obtain ⟨_, -, h⟩ := bind_eq_ok.1 h
      obtain ⟨_, -, h⟩ := bind_eq_ok.1 h
      obtain ⟨_, -, h⟩ := bind_eq_ok.1 h
      obtain ⟨_, -, h⟩ := bind_eq_ok.1 h
      obtain ⟨_, -, h⟩ := bind_eq_ok.1 h
      have h := (Prod.mk.inj (Option.some.inj (Outcome.ok.inj h))).1
      rw [← h]; exact hm

/-- One call of `next` in a debug build, on any dataset and state. -/
theorem next_debug {ds : Dataset} {s s' : Slicer} {it : Item}
    (h : s.next .debug ds = ok (some (it, s'))) :
    it.start < it.stop ∧ s'.offset = s.offset + (it.stop - it.start) ∧ s'.offset ≤ s.stop ∧
    s'.stop = s.stop ∧ s'.indices = s.indices ∧ s'.counts = s.counts ∧
    (ds.shape ≠ [] → it.stop ≤ ds.chunkShape.prod) := by
  unfold Slicer.next at h
  split at h
  · simp at h
  split at h
  · rename_i hlt hsc
    obtain ⟨_, -, h⟩ := bind_eq_ok.1 h
    obtain ⟨o, ho, h⟩ := bind_eq_ok.1 h
    obtain ⟨c, hc, h⟩ := bind_eq_ok.1 h
    obtain ⟨h1, h2⟩ := Prod.mk.inj (Option.some.inj (Outcome.ok.inj h))
    obtain ⟨rfl, -⟩ := add64_debug ho
    subst h1 h2
    simp only [Nat.lt_one_iff, Nat.sub_zero, true_and]
    refine ⟨by omega, ?_⟩
    intro hne
    simp only [Dataset.isScalar, List.isEmpty_iff] at hsc
    exact absurd hsc hne
  · rename_i hlt hns
    obtain ⟨st, -, h⟩ := bind_eq_ok.1 h
    obtain ⟨c, -, h⟩ := bind_eq_ok.1 h
    obtain ⟨_, -, h⟩ := bind_eq_ok.1 h
    obtain ⟨_, -, h⟩ := bind_eq_ok.1 h
    obtain ⟨cs, -, h⟩ := bind_eq_ok.1 h
    obtain ⟨w, hw, h⟩ := bind_eq_ok.1 h
    obtain ⟨_, hadv, h⟩ := bind_eq_ok.1 h
    obtain ⟨ce, hce, h⟩ := bind_eq_ok.1 h
    obtain ⟨sz, hsz, h⟩ := bind_eq_ok.1 h
    obtain ⟨_, hle, h⟩ := bind_eq_ok.1 h
    obtain ⟨h1, h2⟩ := Prod.mk.inj (Option.some.inj (Outcome.ok.inj h))
    obtain ⟨rfl, -⟩ := add64_debug hce
    have hadv := debugAssert_debug hadv
    have hle := debugAssert_debug hle
    have hsz := product64_debug hsz
    simp only [decide_eq_true_eq] at hadv hle
    obtain ⟨i1, i2, i3⟩ := walk_debug _ _ _ _ _ _ hw
    subst h1 h2
    simp only [true_and]
    refine ⟨by omega, by omega, i3 (by omega), fun _ => by omega⟩

theorem trace_mem {p : Profile} {ds : Dataset} (fuel : Nat) (s : Slicer) :
    ∀ it ∈ (Slicer.trace p ds fuel s).items, it.chunk ∈ ds.chunks := by
  induction fuel generalizing s with
  | zero => simp [Slicer.trace]
  | succ fuel ih =>
    intro it hit
    simp only [Slicer.trace] at hit
    split at hit
    · simp at hit
    · rename_i it' s' hn
      simp only [List.mem_cons] at hit
      rcases hit with rfl | hit
      · exact next_chunk_mem hn
      · exact ih _ _ hit
    all_goals simp at hit

/-- Items of a scalar dataset are `0..1`. -/
theorem trace_scalar {p : Profile} {ds : Dataset} (he : ds.shape = []) (fuel : Nat) (s : Slicer) :
    ∀ it ∈ (Slicer.trace p ds fuel s).items, it.stop = 1 := by
  induction fuel generalizing s with
  | zero => simp [Slicer.trace]
  | succ fuel ih =>
    intro it hit
    simp only [Slicer.trace] at hit
    split at hit
    · simp at hit
    · rename_i it' s' hn
      simp only [List.mem_cons] at hit
      rcases hit with rfl | hit
      · unfold Slicer.next at hn
        have hsc : ds.isScalar = true := by simp [Dataset.isScalar, he]
        rw [if_pos hsc] at hn
        split at hn
        · simp at hn
        · obtain ⟨_, -, hn⟩ := bind_eq_ok.1 hn
          obtain ⟨_, -, hn⟩ := bind_eq_ok.1 hn
          obtain ⟨_, -, hn⟩ := bind_eq_ok.1 hn
          have hn := (Prod.mk.inj (Option.some.inj (Outcome.ok.inj hn))).1
          rw [← hn]
      · exact ih _ _ hit
    all_goals simp at hit

/-- Number of values in slices. -/
def total (items : List Item) : Nat := (items.map fun it => it.stop - it.start).sum

/-- Debug builds: the items of any iteration are non-empty, inside a chunk, and never hold more
values than the selection. -/
theorem trace_debug {ds : Dataset} (fuel : Nat) (s : Slicer) (hs : s.offset ≤ s.stop) :
    s.offset + total (Slicer.trace .debug ds fuel s).items ≤ s.stop ∧
    (∀ it ∈ (Slicer.trace .debug ds fuel s).items, it.start < it.stop ∧
      (ds.shape ≠ [] → it.stop ≤ ds.chunkShape.prod)) := by
  induction fuel generalizing s with
  | zero => simpa [Slicer.trace, total] using hs
  | succ fuel ih =>
    simp only [Slicer.trace]
    split
    · simpa [total] using hs
    · rename_i it s' hn
      obtain ⟨h1, h2, h3, h4, -, -, h5⟩ := next_debug hn
      obtain ⟨i1, i2⟩ := ih s' (by omega)
      simp only [total, List.map_cons, List.sum_cons, List.mem_cons, forall_eq_or_imp] at i1 ⊢
      exact ⟨by omega, ⟨h1, h5⟩, i2⟩
    all_goals simpa [total] using hs

/-- The call returned a value or panicked: no error, no undefined behaviour, and it ended. -/
def OkOrPanic {α : Type} (x : Outcome α) : Prop := (∃ a, x = ok a) ∨ ∃ f, x = .panic f

theorem OkOrPanic.bind {α β : Type} {x : Outcome α} {f : α → Outcome β} (hx : OkOrPanic x)
    (hf : ∀ a, x = ok a → OkOrPanic (f a)) : OkOrPanic (x >>= f) := by
  rcases hx with ⟨a, rfl⟩ | ⟨e, rfl⟩
  · exact hf a rfl
  · exact .inr ⟨e, rfl⟩

theorem okp_ok {α : Type} (a : α) : OkOrPanic (ok a) := .inl ⟨a, rfl⟩
theorem okp_panic {α : Type} (f : Fault) : OkOrPanic (.panic f : Outcome α) := .inr ⟨f, rfl⟩

theorem okp_add64 (p : Profile) (a b : Nat) : OkOrPanic (add64 p a b) := by
  unfold add64; split
  · exact okp_ok _
  · cases p <;> first | exact okp_ok _ | exact okp_panic _
theorem okp_sub64 (p : Profile) (a b : Nat) : OkOrPanic (sub64 p a b) := by
  unfold sub64; split
  · exact okp_ok _
  · cases p <;> first | exact okp_ok _ | exact okp_panic _
theorem okp_mul64 (p : Profile) (a b : Nat) : OkOrPanic (mul64 p a b) := by
  unfold mul64; split
  · exact okp_ok _
  · cases p <;> first | exact okp_ok _ | exact okp_panic _
theorem okp_debugAssert (p : Profile) (b : Bool) : OkOrPanic (debugAssert p b) := by
  cases p <;> cases b <;> first | exact okp_ok _ | exact okp_panic _
theorem okp_assertP (b : Bool) : OkOrPanic (assertP b) := by
  cases b <;> first | exact okp_ok _ | exact okp_panic _
theorem okp_index {α : Type} (l : List α) (i : Nat) : OkOrPanic (index l i) := by
  unfold index; split <;> first | exact okp_ok _ | exact okp_panic _
theorem okp_product64 (p : Profile) (l : List Nat) : OkOrPanic (product64 p l) := by
  unfold product64
  generalize 1 = acc
  induction l generalizing acc with
  | nil => exact okp_ok _
  | cons a l ih =>
    rw [List.foldlM_cons]
    exact (okp_mul64 _ _ _).bind fun _ _ => ih _

theorem okp_cutSize (p : Profile) (l : Lane) : OkOrPanic (cutSize p l) := by
  unfold cutSize
  refine (okp_add64 _ _ _).bind fun e _ => ?_
  split
  · exact (okp_sub64 _ _ _).bind fun _ _ => okp_sub64 _ _ _
  · exact okp_ok _

theorem okp_carryRest (p : Profile) (c : Nat) (ls : List Lane) : OkOrPanic (carryRest p c ls) := by
  induction ls generalizing c with
  | nil => exact okp_ok _
  | cons l ls ih =>
    unfold carryRest
    refine (okp_add64 _ _ _).bind fun e _ => ?_
    split
    · exact okp_ok _
    · exact (ih _).bind fun _ _ => okp_ok _

theorem okp_walk (p : Profile) (stop carry adv soff : Nat) (ls : List Lane) :
    OkOrPanic (walk p stop carry adv soff ls) := by
  induction ls generalizing carry adv soff with
  | nil => exact okp_ok _
  | cons l ls ih =>
    unfold walk
    refine (okp_cutSize _ _).bind fun csz _ => (okp_add64 _ _ _).bind fun o _ => ?_
    dsimp only
    split
    · exact (ih _ _ _).bind fun _ _ => okp_ok _
    · refine (okp_debugAssert _ _).bind fun _ _ => (okp_add64 _ _ _).bind fun _ _ =>
        (okp_sub64 _ _ _).bind fun _ _ => (okp_sub64 _ _ _).bind fun _ _ =>
        (okp_mul64 _ _ _).bind fun _ _ => (okp_add64 _ _ _).bind fun _ _ =>
        (okp_add64 _ _ _).bind fun _ _ => (okp_add64 _ _ _).bind fun _ _ => ?_
      split
      · exact (ih _ _ _).bind fun _ _ => okp_ok _
      · exact (okp_debugAssert _ _).bind fun _ _ => (okp_carryRest _ _ _).bind fun _ _ => okp_ok _

theorem okp_addAll (p : Profile) (a b : List Nat) : OkOrPanic (addAll p a b) := by
  induction a generalizing b with
  | nil => exact okp_ok _
  | cons x a ih =>
    cases b with
    | nil => exact okp_ok _
    | cons y b =>
      exact (okp_add64 _ _ _).bind fun _ _ => (ih _).bind fun _ _ => okp_ok _

theorem okp_chunkIndexAux (p : Profile) (acc : Nat) (a b c : List Nat) :
    OkOrPanic (chunkIndexAux p acc a b c) := by
  induction a generalizing acc b c with
  | nil => exact okp_ok _
  | cons x a ih =>
    cases b with
    | nil => exact okp_ok _
    | cons y b =>
      cases c with
      | nil => exact okp_ok _
      | cons z c =>
        exact (okp_mul64 _ _ _).bind fun _ _ => (okp_add64 _ _ _).bind fun _ _ => ih _ _ _

theorem okp_chunkStartAux (p : Profile) (acc : Nat) (a b c : List Nat) :
    OkOrPanic (chunkStartAux p acc a b c) := by
  induction a generalizing acc b c with
  | nil => exact okp_ok _
  | cons x a ih =>
    cases b with
    | nil => exact okp_ok _
    | cons y b =>
      cases c with
      | nil => exact okp_ok _
      | cons z c =>
        exact (okp_sub64 _ _ _).bind fun _ _ => (okp_mul64 _ _ _).bind fun _ _ =>
          (okp_add64 _ _ _).bind fun _ _ => ih _ _ _

theorem okp_containsAux (p : Profile) (a b c : List Nat) :
    OkOrPanic (Chunk.containsAux p a b c) := by
  induction a generalizing b c with
  | nil => exact okp_ok _
  | cons x a ih =>
    cases b with
    | nil => exact okp_ok _
    | cons y b =>
      cases c with
      | nil => exact okp_ok _
      | cons z c =>
        unfold Chunk.containsAux
        split
        · exact okp_ok _
        · refine (okp_add64 _ _ _).bind fun _ _ => ?_
          split
          · exact okp_ok _
          · exact ih _ _

theorem okp_contains (p : Profile) (c : Chunk) (i s : List Nat) : OkOrPanic (c.contains p i s) :=
  (okp_assertP _).bind fun _ _ => (okp_assertP _).bind fun _ _ => okp_containsAux _ _ _ _

theorem okp_chunkAtCoord (p : Profile) (ds : Dataset) (i : List Nat) :
    OkOrPanic (ds.chunkAtCoord p i) :=
  (okp_debugAssert _ _).bind fun _ _ => (okp_debugAssert _ _).bind fun _ _ =>
    (okp_chunkIndexAux _ _ _ _ _).bind fun _ _ => okp_index _ _

/-- A call of `next` returns or panics. -/
theorem okp_next (p : Profile) (ds : Dataset) (s : Slicer) : OkOrPanic (s.next p ds) := by
  unfold Slicer.next
  split
  · exact okp_ok _
  split
  · exact (okp_debugAssert _ _).bind fun _ _ => (okp_add64 _ _ _).bind fun _ _ =>
      (okp_index _ _).bind fun _ _ => okp_ok _
  · refine (okp_addAll _ _ _).bind fun _ _ => (okp_chunkAtCoord _ _ _).bind fun _ _ => ?_
    cases p with
    | debug =>
      exact (okp_contains _ _ _ _).bind fun _ _ => (okp_debugAssert _ _).bind fun _ _ =>
        (okp_chunkStartAux _ _ _ _ _).bind fun _ _ => (okp_walk _ _ _ _ _ _).bind fun _ _ =>
        (okp_debugAssert _ _).bind fun _ _ => (okp_add64 _ _ _).bind fun _ _ =>
        (okp_product64 _ _).bind fun _ _ => (okp_debugAssert _ _).bind fun _ _ => okp_ok _
    | release =>
      exact (okp_ok _).bind fun _ _ => (okp_chunkStartAux _ _ _ _ _).bind fun _ _ =>
        (okp_walk _ _ _ _ _ _).bind fun _ _ =>
        (okp_debugAssert _ _).bind fun _ _ => (okp_add64 _ _ _).bind fun _ _ =>
        (okp_ok _).bind fun _ _ => okp_ok _

theorem next_ne_diverge (p : Profile) (ds : Dataset) (s : Slicer) : s.next p ds ≠ diverge := by
  rcases okp_next p ds s with ⟨a, h⟩ | ⟨f, h⟩ <;> simp [h]

/-- Debug builds: with enough fuel the iteration does not run out of it. -/
theorem trace_debug_ends {ds : Dataset} (fuel : Nat) (s : Slicer) (hf : s.stop - s.offset < fuel) :
    (Slicer.trace .debug ds fuel s).ending ≠ diverge := by
  induction fuel generalizing s with
  | zero => omega
  | succ fuel ih =>
    simp only [Slicer.trace]
    split <;> try simp
    · rename_i it s' hn
      obtain ⟨h1, h2, h3, h4, -⟩ := next_debug hn
      exact ih s' (by omega)
    · rename_i hn
      -- `next` itself never diverges
      exact absurd hn (next_ne_diverge _ _ _)

end Hidefix.Proofs
