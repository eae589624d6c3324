import Verif.Spec.Tree
import Verif.Proofs.Serde
import Mathlib.Data.List.Zip

/-!
# Self-describing formats: reading back what was written
-/

set_option autoImplicit false

namespace Hidefix.Proofs
open Hidefix Hidefix.Spec Outcome

theorem mem_nodup_keys {α : Type} {m : List (Name × α)} (h : (m.map Prod.fst).Nodup) {n : Name} {a b : α}
    (ha : (n, a) ∈ m) (hb : (n, b) ∈ m) : a = b := by
  induction m with
  | nil => simp at ha
  | cons e m ih =>
    rw [List.map_cons, List.nodup_cons] at h
    rcases List.mem_cons.1 ha with ha | ha2
    · subst ha
      rcases List.mem_cons.1 hb with hb | hb
      · exact (Prod.mk.inj hb).2.symm
      · exact absurd (List.mem_map.2 ⟨_, hb, rfl⟩) h.1
    · rcases List.mem_cons.1 hb with hb | hb2
      · subst hb
        exact absurd (List.mem_map.2 ⟨_, ha2, rfl⟩) h.1
      · exact ih h.2 ha2 hb2

theorem mapGet_of_mem {α : Type} {m : List (Name × α)} (h : (m.map Prod.fst).Nodup) {n : Name} {a : α}
    (ha : (n, a) ∈ m) : mapGet m n = some a := by
  induction m with
  | nil => simp at ha
  | cons e m ih =>
    obtain ⟨k, b⟩ := e
    rw [List.map_cons, List.nodup_cons] at h
    unfold mapGet
    rcases List.mem_cons.1 ha with hx | ha
    · obtain ⟨rfl, rfl⟩ := Prod.mk.inj hx
      simp
    · rw [if_neg, ih h.2 ha]
      rintro rfl
      exact h.1 (List.mem_map.2 ⟨_, ha, rfl⟩)

theorem mem_of_mapGet {α : Type} {m : List (Name × α)} {n : Name} {a : α}
    (ha : mapGet m n = some a) : (n, a) ∈ m := by
  induction m with
  | nil => simp [mapGet] at ha
  | cons e m ih =>
    obtain ⟨k, b⟩ := e
    unfold mapGet at ha
    split at ha
    · rename_i h
      subst h
      rw [← Option.some.inj ha]
      simp
    · exact List.mem_cons_of_mem _ (ih ha)

theorem mapGet_none_iff {α : Type} {m : List (Name × α)} {n : Name} :
    mapGet m n = none ↔ n ∉ m.map Prod.fst := by
  induction m with
  | nil => simp [mapGet]
  | cons e m ih =>
    obtain ⟨k, b⟩ := e
    unfold mapGet
    by_cases h : k = n
    · subst h; simp
    · rw [if_neg h, ih, List.map_cons, List.mem_cons]
      constructor
      · rintro h1 (h2 | h2)
        · exact h h2.symm
        · exact h1 h2
      · intro h1 h2
        exact h1 (.inr h2)

/-! ## Reordered trees -/

theorem reordered_map {l : List (Name × Tree)} {t : Tree} (hn : (l.map Prod.fst).Nodup)
    (h : Reordered (.map l) t) : ∃ l', t = .map l' ∧ (l.map Prod.fst).Perm (l'.map Prod.fst) ∧
      ∀ n a b, (n, a) ∈ l → (n, b) ∈ l' → Reordered a b := by
  cases h with
  | same => exact ⟨l, rfl, .refl _, fun n a b ha hb => mem_nodup_keys hn ha hb ▸ .same _⟩
  | map h1 h2 => exact ⟨_, rfl, h1, h2⟩

theorem reordered_null {t : Tree} (h : Reordered .null t) : t = .null := by cases h; rfl
theorem reordered_bool {b : Bool} {t : Tree} (h : Reordered (.bool b) t) : t = .bool b := by cases h; rfl
theorem reordered_uint {n : Nat} {t : Tree} (h : Reordered (.uint n) t) : t = .uint n := by cases h; rfl
theorem reordered_bytes {b : List Byte} {t : Tree} (h : Reordered (.bytes b) t) : t = .bytes b := by
  cases h; rfl
theorem reordered_str {b : Name} {t : Tree} (h : Reordered (.str b) t) : t = .str b := by cases h; rfl
theorem reordered_seq {l : List Tree} {t : Tree} (h : Reordered (.seq l) t) : t = .seq l := by cases h; rfl

/-- A map with one entry is the same whatever the order. -/
theorem reordered_one {n : Name} {a : Tree} {t : Tree} (h : Reordered (.map [(n, a)]) t) :
    ∃ b, t = .map [(n, b)] ∧ Reordered a b := by
  obtain ⟨l', rfl, h1, h2⟩ := reordered_map (by simp) h
  have : l'.map Prod.fst = [n] := List.perm_singleton.1 h1.symm
  match l', this with
  | [(m, b)], hm =>
    obtain rfl : m = n := by simpa using hm
    exact ⟨b, rfl, h2 m a b (by simp) (by simp)⟩

theorem depth_mem {l : List (Name × Tree)} {n : Name} {t : Tree} (h : (n, t) ∈ l) :
    t.depth < (Tree.map l).depth := by
  have : t.depth ≤ depthMap l := by
    induction l with
    | nil => simp at h
    | cons e l ih =>
      obtain ⟨m, s⟩ := e
      rw [depthMap]
      rcases List.mem_cons.1 h with hx | h
      · obtain ⟨-, rfl⟩ := Prod.mk.inj hx; omega
      · have := ih h; omega
  rw [Tree.depth]; omega

theorem depth_seq_mem {l : List Tree} {t : Tree} (h : t ∈ l) : t.depth < (Tree.seq l).depth := by
  have : t.depth ≤ depthSeq l := by
    induction l with
    | nil => simp at h
    | cons e l ih =>
      rw [depthSeq]
      rcases List.mem_cons.1 h with hx | h
      · subst hx; omega
      · have := ih h; omega
  rw [Tree.depth]; omega

/-- The fields of a struct are found again. -/
theorem fields_reordered {names : List Name} {vs : List Tree} {t : Tree} (hn : names.Nodup)
    (hl : vs.length = names.length) (h : Reordered (.map (names.zip vs)) t) :
    ∃ f : List Tree, fieldsOf names t = ok (f.map some) ∧ List.Forall₂ Reordered vs f ∧
      ∀ x ∈ f, x.depth < t.depth := by
  have hk : (names.zip vs).map Prod.fst = names := by rw [List.map_fst_zip]; omega
  obtain ⟨l', rfl, h1, h2⟩ := reordered_map (by rw [hk]; exact hn) h
  rw [hk] at h1
  have hn' : (l'.map Prod.fst).Nodup := h1.nodup_iff.1 hn
  have hc : (names.all fun n => (l'.filter fun e => e.1 == n).length ≤ 1) = true := by
    rw [List.all_eq_true]
    intro n _
    have : (l'.filter fun e => e.1 == n).length = (l'.map Prod.fst).count n := by
      rw [List.count_eq_length_filter, List.filter_map, List.length_map]
      rfl
    rw [this]
    simpa using List.nodup_iff_count_le_one.1 hn' n
  have hf : ∀ n ∈ names, ∃ x, mapGet l' n = some x := by
    intro n hn
    cases hg : mapGet l' n with
    | some x => exact ⟨x, rfl⟩
    | none => exact absurd (h1.subset hn) (mapGet_none_iff.1 hg)
  refine ⟨names.map fun n => (mapGet l' n).getD .null, ?_, ?_, ?_⟩
  · rw [fieldsOf, if_pos hc, List.map_map]
    congr 1
    refine List.map_congr_left fun n hn => ?_
    obtain ⟨x, hx⟩ := hf n hn
    simp [hx]
  · rw [List.forall₂_iff_zip]
    refine ⟨by simp [hl], ?_⟩
    intro a b hab
    rw [List.zip_map_right, List.mem_map] at hab
    obtain ⟨⟨a', n⟩, h3, h4⟩ := hab
    obtain ⟨rfl, rfl⟩ := Prod.mk.inj h4
    obtain ⟨x, hx⟩ := hf n (List.of_mem_zip h3).2
    refine h2 n a' _ ?_ (mem_of_mapGet (by simp [hx]))
    rw [← List.zip_swap, List.mem_map]
    exact ⟨_, h3, rfl⟩
  · intro x hx
    obtain ⟨n, hn, rfl⟩ := List.mem_map.1 hx
    obtain ⟨x, hx⟩ := hf n hn
    rw [hx]
    exact depth_mem (mem_of_mapGet hx)

/-- A `HashMap` is read back, up to the order of its entries. -/
theorem map_reordered {α β : Type} {m : List (Name × α)} {f : α → Tree} {d : Tree → Outcome β} {t : Tree}
    {R : α → β → Prop} (hn : (m.map Prod.fst).Nodup) (hu : ∀ e ∈ m, utf8 e.1 = true)
    (hd : ∀ n a t', (n, a) ∈ m → Reordered (f a) t' → t'.depth < t.depth → ∃ b, d t' = ok b ∧ R a b)
    (h : Reordered (.map (m.map fun e => (e.1, f e.2))) t) :
    ∃ m', ofTreeMap d t = ok m' ∧ (m.map Prod.fst).Perm (m'.map Prod.fst) ∧
      (∀ n a b, (n, a) ∈ m → (n, b) ∈ m' → R a b) := by
  have hk : (m.map fun e => (e.1, f e.2)).map Prod.fst = m.map Prod.fst := by
    rw [List.map_map]; rfl
  obtain ⟨l', rfl, h1, h2⟩ := reordered_map (by rw [hk]; exact hn) h
  rw [hk] at h1
  have hn' : (l'.map Prod.fst).Nodup := h1.nodup_iff.1 hn
  have key : ∀ l : List (Name × Tree), (∀ e ∈ l, e ∈ l') →
      ∃ m', allOf (ofTreeEntry d) l = ok m' ∧ m'.map Prod.fst = l.map Prod.fst ∧
        ∀ n a b, (n, a) ∈ m → (n, b) ∈ m' → R a b := by
    intro l hl
    induction l with
    | nil => exact ⟨[], rfl, rfl, by simp⟩
    | cons e l ih =>
      obtain ⟨n, t'⟩ := e
      obtain ⟨m', i1, i2, i3⟩ := ih fun e he => hl e (by simp [he])
      have hmem := hl (n, t') (by simp)
      have hn1 : n ∈ m.map Prod.fst := h1.symm.subset (List.mem_map_of_mem (f := Prod.fst) hmem)
      obtain ⟨⟨n', a⟩, ha, rfl⟩ := List.mem_map.1 hn1
      obtain ⟨b, hb, hr⟩ := hd n' a t' ha
        (h2 n' _ t' (List.mem_map.2 ⟨(n', a), ha, rfl⟩) hmem) (depth_mem hmem)
      refine ⟨(n', b) :: m', ?_, by simp [i2], ?_⟩
      · rw [allOf, ofTreeEntry, if_pos (hu _ ha)]
        simp [hb, i1]
      · intro n a' b' ha' hb'
        rcases List.mem_cons.1 hb' with hx | hb'
        · obtain ⟨rfl, rfl⟩ := Prod.mk.inj hx
          rw [mem_nodup_keys hn ha' ha]
          exact hr
        · exact i3 n a' b' ha' hb'
  obtain ⟨m', k1, k2, k3⟩ := key l' fun _ h => h
  refine ⟨m', ?_, by rw [k2]; exact h1, k3⟩
  rw [ofTreeMap, k1, ok_bind, mapCollect_nodup (by rw [k2]; exact hn')]

/-! ## Datasets -/

theorem allOf_uint {l : List Nat} (h : ∀ x ∈ l, FitsU64 x) : allOf (ofTreeUint 8) (l.map .uint) = ok l := by
  induction l with
  | nil => rfl
  | cons x l ih =>
    have hx : x < 256 ^ 8 := by have := h x (by simp); unfold FitsU64 at this; omega
    rw [List.map_cons, allOf, ofTreeUint, if_pos hx, ok_bind, ih fun y hy => h y (by simp [hy])]
    rfl

theorem arr_tree {D : Nat} {l : List Nat} {t : Tree} (h : IsArr D l) (ht : Reordered (treeArr l) t) :
    ofTreeArr D t = ok l := by
  rw [reordered_seq ht, ofTreeArr, ofTreeVec, allOf_uint h.2, ok_bind]
  simp [← h.1]

theorem sr_tree {D : Nat} {l : List Nat} {t : Tree} (h : IsArr D l) (h0 : ∀ x ∈ l, x ≠ 0)
    (ht : Reordered (treeArr l) t) : ofTreeSr D t = ok l := by
  rw [reordered_seq ht, ofTreeSr, ofTreeVec, allOf_uint h.2, ok_bind]
  have : l.all (fun c => c != 0) = true := by simpa using h0
  simp [h.1, strengthReduce, this]

theorem u64_tree {n : Nat} {t : Tree} (h : FitsU64 n) (ht : Reordered (.uint n) t) : ofTreeUint 8 t = ok n := by
  rw [reordered_uint ht, ofTreeUint, if_pos]
  unfold FitsU64 at h; omega

theorem chunks_tree {D : Nat} {l : List Chunk} {t : Tree} (h : ∀ c ∈ l, IsChunk D c)
    (hl : FitsU64 (l.length * (8 * (D + 2)))) (ht : Reordered (treeChunks l) t) : ofTreeChunks D t = ok l := by
  rw [reordered_bytes ht]
  have h1 := (reads_chunks h hl).1 []
  rw [List.append_nil, decChunks, encChunks] at h1
  have h2 : decBytes (encBytes (l.map Chunk.enc).flatten) = ok ((l.map Chunk.enc).flatten, []) := by
    have hlen : (l.map Chunk.enc).flatten.length = l.length * (8 * (D + 2)) := by
      clear h1 hl ht
      induction l with
      | nil => simp
      | cons c l ih =>
        rw [List.map_cons, List.flatten_cons, List.length_append, ih fun x hx => h x (by simp [hx]),
          chunk_enc_length (h c (by simp)).2.2.1, List.length_cons, Nat.add_mul l.length 1 (8 * (D + 2))]
        omega
    have := (reads_bytes (b := (l.map Chunk.enc).flatten) (by rw [hlen]; exact hl)).1 []
    simpa using this
  rw [h2, ok_bind] at h1
  rw [ofTreeChunks, ofTreeBytes, ok_bind]
  generalize (l.map Chunk.enc).flatten = b at h1
  dsimp only at h1
  by_cases c1 : b.length % 8 = 0
  · rw [if_pos c1] at h1 ⊢
    by_cases c2 : b.length / 8 % (D + 2) = 0
    · rw [if_pos c2] at h1 ⊢
      exact congrArg Outcome.ok (Prod.mk.inj (Outcome.ok.inj h1)).1
    · rw [if_neg c2] at h1
      exact absurd h1 (by simp)
  · rw [if_neg c1] at h1
    exact absurd h1 (by simp)

theorem datatype_tree {x : Datatype} {t : Tree} (h : FitsU64 x.dsize) (ht : Reordered x.tree t) :
    ofTreeDatatype t = ok x := by
  cases x with
  | uint n =>
    obtain ⟨b, rfl, hb⟩ := reordered_one ht
    show (required (ofTreeUint 8) (some b) >>= fun n => ok (Datatype.uint n)) = _
    rw [required, u64_tree h hb]; rfl
  | int n =>
    obtain ⟨b, rfl, hb⟩ := reordered_one ht
    show (required (ofTreeUint 8) (some b) >>= fun n => ok (Datatype.int n)) = _
    rw [required, u64_tree h hb]; rfl
  | float n =>
    obtain ⟨b, rfl, hb⟩ := reordered_one ht
    show (required (ofTreeUint 8) (some b) >>= fun n => ok (Datatype.float n)) = _
    rw [required, u64_tree h hb]; rfl
  | custom n =>
    obtain ⟨b, rfl, hb⟩ := reordered_one ht
    show (required (ofTreeUint 8) (some b) >>= fun n => ok (Datatype.custom n)) = _
    rw [required, u64_tree h hb]; rfl

theorem order_tree {x : ByteOrder} {t : Tree} (ht : Reordered x.tree t) : ofTreeOrder t = ok x := by
  cases x <;> simp only [ByteOrder.tree] at ht <;> rw [reordered_str ht] <;> rfl

theorem gzip_tree {z : Option Nat} {t : Tree} (h : ∀ x, z = some x → x < 256)
    (ht : Reordered (treeOption .uint z) t) : optional (ofTreeUint 1) (some t) = ok z := by
  cases z with
  | none => rw [reordered_null ht]; rfl
  | some x =>
    rw [reordered_uint ht, optional, ofTreeUint, if_pos (by have := h x rfl; omega)]
    · rfl
    · simp

theorem path_tree {z : Option Name} {t : Tree} (h : pathUtf8 z = true)
    (ht : Reordered (treeOption .str z) t) : optional ofTreePath (some t) = ok z := by
  cases z with
  | none => rw [reordered_null ht]; rfl
  | some x =>
    rw [reordered_str ht, optional, ofTreePath, if_pos (show utf8 x = true from h)]
    · rfl
    · simp

theorem dataset_tree {ds : Dataset} {t : Tree} (h : IsDataset ds) (ht : Reordered ds.tree t) :
    ofTreeDataset ds.shape.length t = ok ds := by
  obtain ⟨f, h1, h2, -⟩ := fields_reordered (by decide) rfl ht
  rw [ofTreeDataset, h1, ok_bind]
  clear h1 ht
  cases h2 with
  | cons a0 h2 => cases h2 with
  | cons a1 h2 => cases h2 with
  | cons a2 h2 => cases h2 with
  | cons a3 h2 => cases h2 with
  | cons a4 h2 => cases h2 with
  | cons a5 h2 => cases h2 with
  | cons a6 h2 => cases h2 with
  | cons a7 h2 => cases h2 with
  | cons a8 h2 => cases h2 with
  | cons a9 h2 => cases h2 with
  | cons a10 h2 => cases h2 with
  | cons a11 h2 =>
    simp only [List.map_cons, List.getD_cons_zero, List.getD_cons_succ, required]
    rw [datatype_tree h.dtype a0, ok_bind, u64_tree h.dsize a1, ok_bind, order_tree a2, ok_bind,
      chunks_tree h.chunks h.chunkBytes a3, ok_bind, arr_tree h.shape a4, ok_bind, arr_tree h.chunkShape a5,
      ok_bind, sr_tree h.chunkShapeReduced h.divisors a6, ok_bind, arr_tree h.scaledDimSz a7, ok_bind,
      arr_tree h.dimSz a8, ok_bind, arr_tree h.chunkDimSz a9, ok_bind, reordered_bool a10, ofTreeBool, ok_bind,
      gzip_tree h.gzip a11, ok_bind]

theorem rankOf_name {n : Nat} (h : n ≤ 9) : rankOf (variantNames.getD n []) = ok n := by
  have : ∀ n ∈ List.range 10, rankOf (variantNames.getD n []) = ok n := by
    intro n hn
    simp only [List.range, List.range.loop, List.mem_cons, List.not_mem_nil, or_false] at hn
    rcases hn with rfl | rfl | rfl | rfl | rfl | rfl | rfl | rfl | rfl | rfl <;> rfl
  exact this n (by rw [List.mem_range]; omega)

theorem datasetD_tree {ds : Dataset} {t : Tree} (h : IsDataset ds) (ht : Reordered (DatasetD.tree ds) t) :
    ofTreeDatasetD t = ok ds := by
  obtain ⟨b, rfl, hb⟩ := reordered_one ht
  rw [ofTreeDatasetD, variantOf, ok_bind]
  dsimp only
  rw [rankOf_name h.rank, ok_bind, required, dataset_tree h hb]

/-! ## Groups -/

theorem treeGroups_eq (gs : List (Name × GroupIndex)) :
    treeGroups gs = gs.map fun e => (e.1, e.2.tree) := by
  induction gs with
  | nil => rfl
  | cons e gs ih => obtain ⟨n, g⟩ := e; rw [treeGroups, ih]; rfl

theorem group_tree {g : GroupIndex} (h : IsGroup g) (hu : AllPaths (fun p => pathUtf8 p = true) g) :
    ∀ {t : Tree} {depth : Nat}, Reordered g.tree t → t.depth < depth →
      ∃ g', ofTreeGroup depth t = ok g' ∧ SameGroup g g' := by
  induction h with
  | @mk path ds gs hp hd1 hd2 hd3 hg1 hg2 hg3 hg4 ih =>
    intro t depth ht hdep
    obtain ⟨depth, rfl⟩ : ∃ k, depth = k + 1 := ⟨depth - 1, by omega⟩
    rw [GroupIndex.tree] at ht
    obtain ⟨f, h1, h2, h3⟩ := fields_reordered (by decide) rfl ht
    rw [ofTreeGroup, h1, ok_bind]
    clear h1 ht
    cases hu with
    | mk hu1 hu2 =>
    cases h2 with
    | cons a0 h2 => cases h2 with
    | cons a1 h2 => cases h2 with
    | cons a2 h2 =>
      simp only [List.map_cons, List.getD_cons_zero, List.getD_cons_succ, required]
      rw [path_tree hu1 a0, ok_bind]
      obtain ⟨ds', e1, e2, e3⟩ := map_reordered (d := ofTreeDatasetD) (R := fun a b => a = b) hd2
        (fun e he => utf8_iff.2 (hd3 e he).1.1)
        (fun n a t' ha hr _ => ⟨a, datasetD_tree (hd3 _ ha).2 hr, rfl⟩) a1
      rw [e1, ok_bind]
      rw [treeGroups_eq] at a2
      obtain ⟨gs', f1, f2, f3⟩ := map_reordered (d := ofTreeGroup depth) (R := SameGroup) hg2
        (fun e he => utf8_iff.2 (hg3 e he).1)
        (fun n a t' ha hr hdp => ih (n, a) ha (hu2 _ ha) hr (by
          have := h3 _ (List.mem_cons_of_mem _ (List.mem_cons_of_mem _ List.mem_cons_self))
          omega)) a2
      rw [f1, ok_bind]
      refine ⟨_, rfl, .mk ?_ f2 f3⟩
      have hk' : (ds'.map Prod.fst).Nodup := e2.nodup_iff.1 hd2
      rw [List.perm_ext_iff_of_nodup hd2.of_map hk'.of_map]
      rintro ⟨n, a⟩
      constructor
      · intro ha
        obtain ⟨⟨n', b⟩, hb, rfl⟩ := List.mem_map.1 (e2.subset (List.mem_map_of_mem (f := Prod.fst) ha))
        rw [e3 n' a b ha hb]
        exact hb
      · intro hb
        obtain ⟨⟨n', a'⟩, ha, rfl⟩ := List.mem_map.1 (e2.symm.subset (List.mem_map_of_mem (f := Prod.fst) hb))
        rw [← e3 n' a' a ha hb]
        exact ha

theorem index_tree {i : Index} (h : IsIndex i) (hu : AllPaths (fun p => pathUtf8 p = true) i.root)
    (hp : pathUtf8 i.path = true) {t : Tree} (ht : Reordered i.tree t) :
    ∃ j, Index.ofTree t = ok j ∧ SameIndex i j := by
  obtain ⟨f, h1, h2, h3⟩ := fields_reordered (by decide) rfl ht
  rw [Index.ofTree, h1, ok_bind]
  clear h1 ht
  cases h2 with
  | cons a0 h2 => cases h2 with
  | cons a1 h2 =>
    simp only [List.map_cons, List.getD_cons_zero, List.getD_cons_succ, required]
    rw [path_tree hp a0, ok_bind]
    obtain ⟨g', e1, e2⟩ := group_tree h.2 hu a1 (depth := t.depth + 1)
      (Nat.lt_succ_of_lt (h3 _ (List.mem_cons_of_mem _ List.mem_cons_self)))
    rw [e1, ok_bind]
    exact ⟨_, rfl, rfl, e2⟩

end Hidefix.Proofs
