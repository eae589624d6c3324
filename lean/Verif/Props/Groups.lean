import Verif.Spec.Paths
import Verif.Props.Index

/-!
# Properties C36, C37, C38: groups and paths
-/

set_option autoImplicit false

namespace Hidefix.Props
open Hidefix Hidefix.Spec Hidefix.Proofs Outcome

/-! ## Splitting -/

theorem split_ne_nil (s : Name) : split s ≠ [] := by
  induction s with
  | nil => simp [split]
  | cons b s ih =>
    unfold split
    split
    · simp
    · cases h : split s with
      | nil => exact absurd h ih
      | cons w ws => simp

/-- The code splits at the character that separates names. -/
@[simp] theorem slash_eq : slash = sep := by decide

theorem split_plain_append {n : Name} (hn : Plain n) (s : Name) :
    split (n ++ sep :: s) = n :: split s := by
  induction n with
  | nil => simp [split]
  | cons b n ih =>
    have hb : b ≠ sep := fun h => hn (by simp [h])
    have ih := ih fun h => hn (by simp [h])
    rw [List.cons_append]
    show (if b = sep then _ else _) = _
    rw [if_neg hb, ih]

theorem split_plain {n : Name} (hn : Plain n) : split n = [n] := by
  induction n with
  | nil => simp [split]
  | cons b n ih =>
    have hb : b ≠ sep := fun h => hn (by simp [h])
    have ih := ih fun h => hn (by simp [h])
    unfold split
    rw [slash_eq, if_neg hb, ih]

/-- The pieces of a joined path are the names. -/
theorem split_joinPath {ns : List Name} (hne : ns ≠ []) (hp : ∀ n ∈ ns, Plain n) :
    split (joinPath ns) = ns := by
  induction ns with
  | nil => exact absurd rfl hne
  | cons n ns ih =>
    cases ns with
    | nil => exact split_plain (hp n (by simp))
    | cons n' ns =>
      simp only [joinPath]
      rw [split_plain_append (hp n (by simp)), ih (by simp) fun m hm => hp m (by simp [hm])]

theorem split_spec (s : Name) : joinPath (split s) = s ∧ ∀ n ∈ split s, Plain n := by
  induction s with
  | nil => simp [split, joinPath, Plain]
  | cons b s ih =>
    obtain ⟨h1, h2⟩ := ih
    unfold split
    split
    · rename_i hb
      refine ⟨?_, ?_⟩
      · cases hs : split s with
        | nil => exact absurd hs (split_ne_nil s)
        | cons w ws =>
          rw [hs] at h1
          simp only [joinPath, List.nil_append, h1, hb, slash_eq]
      · intro n hn
        rcases List.mem_cons.1 hn with rfl | hn
        · simp [Plain]
        · exact h2 n hn
    · rename_i hb
      cases hs : split s with
      | nil => exact absurd hs (split_ne_nil s)
      | cons w ws =>
        rw [hs] at h1 h2
        simp only
        refine ⟨?_, ?_⟩
        · cases ws with
          | nil => simp only [joinPath] at h1 ⊢; rw [h1]
          | cons w' ws => simp only [joinPath, List.cons_append] at h1 ⊢; rw [h1]
        · intro n hn
          rcases List.mem_cons.1 hn with rfl | hn
          · have := h2 w (by simp)
            simp only [Plain, List.mem_cons, not_or]
            exact ⟨fun h => hb h.symm, this⟩
          · exact h2 n (by simp [hn])

theorem trimStart_slashes (k : Nat) (s : Name) :
    trimStart (List.replicate k sep ++ s) = trimStart s := by
  induction k with
  | zero => rfl
  | succ k ih => rw [List.replicate_succ, List.cons_append, ← ih]; simp [trimStart, slash_eq]

theorem trimStart_spec (s : Name) : (∃ k, s = List.replicate k sep ++ trimStart s) ∧
    ∀ b, (trimStart s).head? = some b → b ≠ sep := by
  induction s with
  | nil => exact ⟨⟨0, rfl⟩, by simp [trimStart]⟩
  | cons b s ih =>
    unfold trimStart
    split
    · rename_i hb
      obtain ⟨⟨k, hk⟩, h2⟩ := ih
      refine ⟨⟨k + 1, ?_⟩, h2⟩
      rw [List.replicate_succ, List.cons_append, ← hk, hb, slash_eq]
    · rename_i hb
      refine ⟨⟨0, rfl⟩, ?_⟩
      intro b' h
      simp at h
      rw [← h]; exact hb

theorem trimStart_of_head {s : Name} (h : s.head? ≠ some sep) : trimStart s = s := by
  cases s with
  | nil => rfl
  | cons b s =>
    unfold trimStart
    rw [if_neg]
    rintro rfl
    simp [slash_eq] at h

theorem joinPath_head {n : Name} {ns : List Name} (hn : n ≠ []) (hp : Plain n) :
    (joinPath (n :: ns)).head? ≠ some sep := by
  cases n with
  | nil => exact absurd rfl hn
  | cons b n =>
    have hb : b ≠ sep := fun h => hp (by simp [h])
    cases ns with
    | nil => simpa [joinPath] using hb
    | cons n' ns => simpa [joinPath] using hb

/-! ## C36 -/

theorem walk_iff {g g' : GroupIndex} {ns : List Name} : g.walk ns = some g' ↔ Follows g ns g' := by
  induction ns generalizing g with
  | nil =>
    simp only [GroupIndex.walk, Option.some.injEq]
    constructor
    · rintro rfl; exact .here g
    · intro h; cases h; rfl
  | cons n ns ih =>
    simp only [GroupIndex.walk]
    cases hm : mapGet g.groups n with
    | none =>
      simp only [reduceCtorEq, false_iff]
      intro h
      cases h with
      | down h1 _ => rw [hm] at h1; simp at h1
    | some g1 =>
      simp only [ih]
      constructor
      · exact fun h => .down hm h
      · intro h
        cases h with
        | down h1 h2 =>
          rw [hm] at h1
          obtain rfl := Option.some.inj h1
          exact h2

theorem dataset_of_pieces {g : GroupIndex} {s : Name} {path : List Name} {d : Name}
    (h : split (trimStart s) = path ++ [d]) (x : Dataset) :
    g.dataset s = some x ↔ ∃ g', Follows g path g' ∧ mapGet g'.datasets d = some x := by
  unfold GroupIndex.dataset
  simp only [h, List.getLast?_concat, List.dropLast_concat]
  cases hw : g.walk path with
  | none =>
    simp only [reduceCtorEq, false_iff]
    rintro ⟨g', h1, -⟩
    rw [walk_iff.2 h1] at hw
    simp at hw
  | some g1 =>
    simp only
    constructor
    · exact fun h => ⟨g1, walk_iff.1 hw, h⟩
    · rintro ⟨g', h1, h2⟩
      rw [walk_iff.2 h1] at hw
      obtain rfl := Option.some.inj hw
      exact h2

/-- C36: a dataset path, the names of groups and of a dataset separated by slashes, with any number of
slashes in front, resolves to what looking up the groups in turn and then the dataset gives. -/
theorem C36 {g : GroupIndex} {path : List Name} {d : Name} (k : Nat)
    (hp : ∀ n ∈ path ++ [d], Plain n ∧ n ≠ []) (x : Dataset) :
    g.dataset (List.replicate k sep ++ joinPath (path ++ [d])) = some x ↔
      ∃ g', Follows g path g' ∧ mapGet g'.datasets d = some x := by
  refine dataset_of_pieces ?_ x
  rw [trimStart_slashes, trimStart_of_head, split_joinPath (by simp) fun n hn => (hp n hn).1]
  cases path with
  | nil => exact joinPath_head (hp d (by simp)).2 (hp d (by simp)).1
  | cons n path => exact joinPath_head (hp n (by simp)).2 (hp n (by simp)).1

/-- C36 for any string at all: it is some slashes followed by names separated by slashes, and resolves to
the lookup of those names (which are empty where slashes are doubled or at the end). -/
theorem C36_any (g : GroupIndex) (s : Name) : ∃ k path d,
    s = List.replicate k sep ++ joinPath (path ++ [d]) ∧ (∀ n ∈ path ++ [d], Plain n) ∧
    ∀ x, g.dataset s = some x ↔ ∃ g', Follows g path g' ∧ mapGet g'.datasets d = some x := by
  obtain ⟨⟨k, hk⟩, -⟩ := trimStart_spec s
  obtain ⟨h1, h2⟩ := split_spec (trimStart s)
  have hne := split_ne_nil (trimStart s)
  have e := (List.dropLast_append_getLast hne).symm
  refine ⟨k, (split (trimStart s)).dropLast, (split (trimStart s)).getLast hne, ?_, ?_, ?_⟩
  · rw [← e, h1]; exact hk
  · rw [← e]; exact h2
  · exact dataset_of_pieces e

/-! ## C37 -/

theorem trimEnd_slashes (k : Nat) (s : Name) :
    trimEnd (s ++ List.replicate k sep) = trimEnd s := by
  unfold trimEnd
  rw [List.reverse_append, List.reverse_replicate, trimStart_slashes]

theorem joinPath_last {ns : List Name} (hne : ns ≠ []) (hp : ∀ n ∈ ns, Plain n ∧ n ≠ []) :
    (joinPath ns).reverse.head? ≠ some sep := by
  induction ns with
  | nil => exact absurd rfl hne
  | cons n ns ih =>
    cases ns with
    | nil =>
      simp only [joinPath, List.head?_reverse]
      intro h
      exact (hp n (by simp)).1 (List.mem_of_getLast? h)
    | cons n' ns =>
      have ih := ih (by simp) fun m hm => hp m (by simp [hm])
      simp only [joinPath]
      rw [List.head?_reverse] at ih ⊢
      rw [List.getLast?_append, List.getLast?_cons]
      cases hj : (joinPath (n' :: ns)).getLast? with
      | none =>
        have : joinPath (n' :: ns) = [] := by simpa using hj
        have h1 := split_joinPath (ns := n' :: ns) (by simp) fun m hm => (hp m (by simp [hm])).1
        rw [this] at h1
        simp only [split, List.cons.injEq] at h1
        exact absurd h1.1.symm (hp n' (by simp)).2
      | some b =>
        rw [hj] at ih
        simpa using ih

/-- C37: a group path, with any number of slashes in front and at the end, resolves to what looking up
the groups in turn gives. (At least one name: see `not_C37`.) -/
theorem C37 {g g' : GroupIndex} {path : List Name} (j k : Nat) (hne : path ≠ [])
    (hp : ∀ n ∈ path, Plain n ∧ n ≠ []) :
    g.group (List.replicate j sep ++ joinPath path ++ List.replicate k sep) = some g' ↔
      Follows g path g' := by
  unfold GroupIndex.group
  have hh : (joinPath path).head? ≠ some sep := by
    cases path with
    | nil => exact absurd rfl hne
    | cons n path => exact joinPath_head (hp n (by simp)).2 (hp n (by simp)).1
  have hj : joinPath path ≠ [] := by
    intro h0
    have h1 := split_joinPath hne fun m hm => (hp m hm).1
    rw [h0] at h1
    cases path with
    | nil => exact hne rfl
    | cons n path =>
      simp only [split, List.cons.injEq] at h1
      exact (hp n (by simp)).2 h1.1.symm
  have e : trimStart (joinPath path ++ List.replicate k sep) = joinPath path ++ List.replicate k sep := by
    refine trimStart_of_head ?_
    cases hjp : joinPath path with
    | nil => exact absurd hjp hj
    | cons b s => rw [hjp] at hh; simpa using hh
  rw [List.append_assoc, trimStart_slashes, e, trimEnd_slashes]
  have e2 : trimEnd (joinPath path) = joinPath path := by
    unfold trimEnd
    rw [trimStart_of_head (joinPath_last hne hp), List.reverse_reverse]
  rw [e2, split_joinPath hne fun m hm => (hp m hm).1, walk_iff]

/-- C37 for any string at all: it is some slashes, names separated by slashes, and some slashes again, and
resolves to the lookup of those names (which are empty where slashes are doubled, and there is one even if
there are only slashes). -/
theorem C37_any (g : GroupIndex) (s : Name) : ∃ j path k, path ≠ [] ∧
    s = List.replicate j sep ++ joinPath path ++ List.replicate k sep ∧ (∀ n ∈ path, Plain n) ∧
    ∀ g', g.group s = some g' ↔ Follows g path g' := by
  obtain ⟨⟨j, hj⟩, -⟩ := trimStart_spec s
  obtain ⟨⟨k, hk⟩, -⟩ := trimStart_spec (trimStart s).reverse
  obtain ⟨h1, h2⟩ := split_spec (trimEnd (trimStart s))
  refine ⟨j, split (trimEnd (trimStart s)), k, split_ne_nil _, ?_, h2, fun g' => ?_⟩
  · rw [h1]
    have e : trimStart s = trimEnd (trimStart s) ++ List.replicate k sep := by
      have := congrArg List.reverse hk
      rw [List.reverse_reverse, List.reverse_append, List.reverse_replicate] at this
      exact this
    rw [List.append_assoc, ← e]
    exact hj
  · unfold GroupIndex.group
    exact walk_iff

theorem follows_append {g g' : GroupIndex} {p q : List Name} :
    Follows g (p ++ q) g' ↔ ∃ m, Follows g p m ∧ Follows m q g' := by
  induction p generalizing g with
  | nil =>
    constructor
    · exact fun h => ⟨g, .here g, h⟩
    · rintro ⟨m, h1, h2⟩; cases h1; exact h2
  | cons n p ih =>
    constructor
    · intro h
      cases h with
      | down h1 h2 =>
        obtain ⟨m, h3, h4⟩ := ih.1 h2
        exact ⟨m, .down h1 h3, h4⟩
    · rintro ⟨m, h1, h2⟩
      cases h1 with
      | down h3 h4 => exact .down h3 (ih.2 ⟨m, h4, h2⟩)

/-- C37: `group(p)` and then `dataset(q/d)` is `dataset(p/q/d)`; `group(p)` and then `group(q)` is
`group(p/q)`. -/
theorem C37_dataset {g : GroupIndex} {path q : List Name} {d : Name} (hne : path ≠ [])
    (hp : ∀ n ∈ path ++ q ++ [d], Plain n ∧ n ≠ []) :
    ((g.group (joinPath path)).bind fun g' => g'.dataset (joinPath (q ++ [d]))) =
      g.dataset (joinPath (path ++ q ++ [d])) ∧
    (q ≠ [] → ((g.group (joinPath path)).bind fun g' => g'.group (joinPath q)) =
      g.group (joinPath (path ++ q))) := by
  have hp1 : ∀ n ∈ path, Plain n ∧ n ≠ [] := fun n hn => hp n (by simp [hn])
  have hp2 : ∀ n ∈ q ++ [d], Plain n ∧ n ≠ [] := fun n hn => hp n (by
    rcases List.mem_append.1 hn with h | h
    · simp [h]
    · simp [List.mem_singleton.1 h])
  have hp3 : ∀ n ∈ path ++ q, Plain n ∧ n ≠ [] := fun n hn => hp n (by
    rw [List.mem_append]; exact .inl hn)
  have hp4 : ∀ n ∈ q, Plain n ∧ n ≠ [] := fun n hn => hp n (by simp [hn])
  have hgrp : ∀ (g g' : GroupIndex) {path : List Name}, path ≠ [] → (∀ n ∈ path, Plain n ∧ n ≠ []) →
      (g.group (joinPath path) = some g' ↔ Follows g path g') := fun g g' path h1 h2 => by
    have := C37 (g := g) (g' := g') 0 0 h1 h2
    simpa using this
  have hds : ∀ (g : GroupIndex) {path : List Name} {d : Name}, (∀ n ∈ path ++ [d], Plain n ∧ n ≠ []) →
      ∀ x, (g.dataset (joinPath (path ++ [d])) = some x ↔
        ∃ g', Follows g path g' ∧ mapGet g'.datasets d = some x) := fun g path d h x => by
    have := C36 (g := g) 0 h x
    simpa using this
  constructor
  · apply Option.ext
    intro x
    rw [Option.bind_eq_some_iff, hds g hp]
    constructor
    · rintro ⟨g1, h1, h2⟩
      obtain ⟨g2, h3, h4⟩ := (hds g1 hp2 x).1 h2
      exact ⟨g2, follows_append.2 ⟨g1, (hgrp g g1 hne hp1).1 h1, h3⟩, h4⟩
    · rintro ⟨g2, h1, h2⟩
      obtain ⟨g1, h3, h4⟩ := follows_append.1 h1
      exact ⟨g1, (hgrp g g1 hne hp1).2 h3, (hds g1 hp2 x).2 ⟨g2, h4, h2⟩⟩
  · intro hq
    apply Option.ext
    intro x
    rw [Option.bind_eq_some_iff, hgrp g x (by simp [hne]) hp3, follows_append]
    constructor
    · rintro ⟨g1, h1, h2⟩
      exact ⟨g1, (hgrp g g1 hne hp1).1 h1, (hgrp g1 x hq hp4).1 h2⟩
    · rintro ⟨g1, h1, h2⟩
      exact ⟨g1, (hgrp g g1 hne hp1).2 h1, (hgrp g1 x hq hp4).2 h2⟩

/-- C37 does not extend to the root: `group("/")` and `group("")` look for a subgroup with an empty name
and so find nothing, although `dataset("/d")` finds `d` in the root. -/
theorem not_C37 (g : GroupIndex) (k : Nat) : g.group (List.replicate k sep) = mapGet g.groups [] := by
  unfold GroupIndex.group
  have e : trimStart (List.replicate k sep) = [] := by
    have := trimStart_slashes k []
    simpa [trimStart] using this
  rw [e]
  simp only [trimEnd, List.reverse_nil, trimStart, split, GroupIndex.walk]
  cases mapGet g.groups [] <;> rfl

/-! ## C38 -/

theorem mapGet_insert {α : Type} (m : List (Name × α)) (k k' : Name) (a : α) :
    mapGet (mapInsert m k a) k' = if k = k' then some a else mapGet m k' := by
  induction m with
  | nil => simp [mapInsert, mapGet]
  | cons e m ih =>
    obtain ⟨q, b⟩ := e
    unfold mapInsert
    by_cases hq : q = k
    · subst hq
      simp only [if_true, mapGet]
      by_cases h : q = k' <;> simp [h]
    · rw [if_neg hq]
      simp only [mapGet, ih]
      by_cases h : q = k'
      · have : k ≠ k' := fun h' => hq (h.trans h'.symm)
        simp [h, this]
      · simp [h]

/-- Collecting entries with different names into a map and looking one up finds the entry. -/
theorem mapGet_collect {α : Type} {l : List (Name × α)} (hn : (l.map Prod.fst).Nodup) (k : Name) (a : α) :
    mapGet (mapCollect l) k = some a ↔ (k, a) ∈ l := by
  have key : ∀ (l : List (Name × α)) (m : List (Name × α)), (l.map Prod.fst).Nodup →
      (mapGet (l.foldl (fun m e => mapInsert m e.1 e.2) m) k = some a ↔
        (k, a) ∈ l ∨ ((∀ e ∈ l, e.1 ≠ k) ∧ mapGet m k = some a)) := by
    intro l
    induction l with
    | nil => simp
    | cons e l ih =>
      intro m hn
      obtain ⟨q, b⟩ := e
      rw [List.map_cons, List.nodup_cons] at hn
      rw [List.foldl_cons, ih _ hn.2, mapGet_insert]
      have hq : ∀ c, (q, c) ∈ l → False := fun c hc =>
        hn.1 (List.mem_map.2 ⟨(q, c), hc, rfl⟩)
      by_cases h : q = k
      · subst h
        simp only [if_true, Option.some.injEq, List.mem_cons, Prod.mk.injEq, true_and]
        constructor
        · rintro (h | ⟨-, rfl⟩)
          · exact .inl (.inr h)
          · exact .inl (.inl rfl)
        · rintro ((rfl | h) | ⟨h, -⟩)
          · refine .inr ⟨?_, rfl⟩
            rintro ⟨q', c⟩ hc rfl
            exact hq c hc
          · exact .inl h
          · exact absurd rfl (h (q, b) (by simp))
      · have h' : ¬ k = q := fun e => h e.symm
        simp [h, h']
  have := key l [] hn
  simpa [mapGet, mapCollect] using this

theorem lastPiece_link {full link : Name} (h : Plain link) :
    lastPiece (full ++ sep :: link) = ok link := by
  have key : ∀ full : Name, (split (full ++ sep :: link)).getLast? = some link := by
    intro full
    induction full with
    | nil => simp [split, split_plain h]
    | cons b full ih =>
      rw [List.cons_append]
      unfold split
      split
      · cases hs : split (full ++ sep :: link) with
        | nil => rw [hs] at ih; simp at ih
        | cons w ws => rw [hs] at ih; simpa using ih
      · cases hs : split (full ++ sep :: link) with
        | nil => rw [hs] at ih; simp at ih
        | cons w ws =>
          cases ws with
          | nil =>
            exfalso
            -- the path has a slash, so there are two pieces
            have h2 := (split_spec (full ++ sep :: link)).2 w (by rw [hs]; simp)
            have h1 := (split_spec (full ++ sep :: link)).1
            rw [hs] at h1
            simp only [joinPath] at h1
            exact h2 (by rw [h1]; simp)
          | cons w' ws => rw [hs] at ih; simpa using ih
  unfold lastPiece
  rw [key full]

theorem allocated_iff {h : H5Dataset} : h.allocated = true ↔ HasStorage h := by
  unfold H5Dataset.allocated HasStorage
  rw [Bool.or_eq_true, Option.isSome_iff_exists]

theorem indexDatasets_inv {p : Profile} {l : List (Name × H5Dataset)} {r : List (Name × Dataset)}
    (h : indexDatasets p l = ok r) :
    (r.map Prod.fst).Sublist (l.map Prod.fst) ∧
    (∀ m x, (m, x) ∈ r ↔ ∃ d, (m, d) ∈ l ∧ HasStorage d ∧ DatasetD.index p d = ok x) ∧
    ∀ m d, (m, d) ∈ l → HasStorage d → ∃ x, DatasetD.index p d = ok x := by
  simp only [← allocated_iff]
  induction l generalizing r with
  | nil =>
    simp only [indexDatasets] at h
    obtain rfl := Outcome.ok.inj h
    simp
  | cons e l ih =>
    obtain ⟨m, d⟩ := e
    simp only [indexDatasets] at h
    split at h
    · rename_i ha
      obtain ⟨x, h1, h⟩ := bind_eq_ok.1 h
      obtain ⟨r', h2, h⟩ := bind_eq_ok.1 h
      obtain rfl := Outcome.ok.inj h
      obtain ⟨i0, i1, i2⟩ := ih h2
      refine ⟨?_, ?_, ?_⟩
      · simpa using i0
      · intro m' x'
        rw [List.mem_cons, i1]
        constructor
        · rintro (h | ⟨d', h3, h4⟩)
          · obtain ⟨rfl, rfl⟩ := Prod.mk.inj h
            exact ⟨d, by simp, ha, h1⟩
          · exact ⟨d', by simp [h3], h4⟩
        · rintro ⟨d', h3, h4, h5⟩
          rcases List.mem_cons.1 h3 with h | h3
          · obtain ⟨rfl, rfl⟩ := Prod.mk.inj h
            rw [h1] at h5
            obtain rfl := Outcome.ok.inj h5
            exact .inl rfl
          · exact .inr ⟨d', h3, h4, h5⟩
      · intro m' d' hd ha'
        rcases List.mem_cons.1 hd with h | h3
        · obtain ⟨rfl, rfl⟩ := Prod.mk.inj h
          exact ⟨x, h1⟩
        · exact i2 m' d' h3 ha'
    · rename_i ha
      obtain ⟨i0, i1, i2⟩ := ih h
      refine ⟨?_, ?_, ?_⟩
      · exact i0.trans (by simp)
      · intro m' x'
        rw [i1]
        constructor
        · rintro ⟨d', h3, h4⟩; exact ⟨d', by simp [h3], h4⟩
        · rintro ⟨d', h3, h4, h5⟩
          rcases List.mem_cons.1 h3 with h | h3
          · obtain ⟨rfl, rfl⟩ := Prod.mk.inj h
            exact absurd h4 ha
          · exact ⟨d', h3, h4, h5⟩
      · intro m' d' hd ha'
        rcases List.mem_cons.1 hd with h | h3
        · obtain ⟨rfl, rfl⟩ := Prod.mk.inj h
          exact absurd ha' ha
        · exact i2 m' d' h3 ha'

theorem indexGroups_inv {p : Profile} {path : Option Name} {full : Name} {l : List (Name × H5Group)}
    {r : List (Name × GroupIndex)} (hp : ∀ e ∈ l, Plain e.1) (h : indexGroups p path full l = ok r) :
    r.map Prod.fst = l.map Prod.fst ∧
    (∀ m x, (m, x) ∈ r → ∃ g, (m, g) ∈ l ∧ indexGroup p path (full ++ sep :: m) g = ok x) ∧
    ∀ m g, (m, g) ∈ l → ∃ x, (m, x) ∈ r ∧ indexGroup p path (full ++ sep :: m) g = ok x := by
  induction l generalizing r with
  | nil =>
    simp only [indexGroups] at h
    obtain rfl := Outcome.ok.inj h
    simp
  | cons e l ih =>
    obtain ⟨m, g⟩ := e
    simp only [indexGroups, slash_eq] at h
    obtain ⟨x, h1, h⟩ := bind_eq_ok.1 h
    rw [lastPiece_link (hp (m, g) (by simp)), ok_bind] at h
    obtain ⟨r', h2, h⟩ := bind_eq_ok.1 h
    obtain rfl := Outcome.ok.inj h
    obtain ⟨i0, i1, i2⟩ := ih (fun e he => hp e (by simp [he])) h2
    refine ⟨by simp [i0], ?_, ?_⟩
    · intro m' x' hm
      rcases List.mem_cons.1 hm with h | hm
      · obtain ⟨rfl, rfl⟩ := Prod.mk.inj h
        exact ⟨g, by simp, h1⟩
      · obtain ⟨g', h3, h4⟩ := i1 m' x' hm
        exact ⟨g', by simp [h3], h4⟩
    · intro m' g' hm
      rcases List.mem_cons.1 hm with h | hm
      · obtain ⟨rfl, rfl⟩ := Prod.mk.inj h
        exact ⟨x, by simp, h1⟩
      · obtain ⟨x', h3, h4⟩ := i2 m' g' hm
        exact ⟨x', by simp [h3], h4⟩

/-- The groups of the index are the groups of the file. -/
theorem index_follows {p : Profile} {path : Option Name} {full : Name} {g : H5Group} {idx : GroupIndex}
    (hw : WellNamed g) (hi : indexGroup p path full g = ok idx) (names : List Name) :
    (∀ idx', Follows idx names idx' → ∃ g' full', H5Follows g names g' ∧ WellNamed g' ∧
      indexGroup p path full' g' = ok idx') ∧
    (∀ g', H5Follows g names g' → ∃ idx' full', Follows idx names idx' ∧ WellNamed g' ∧
      indexGroup p path full' g' = ok idx') := by
  induction names generalizing g idx full with
  | nil =>
    constructor
    · intro idx' h; cases h; exact ⟨g, full, .here g, hw, hi⟩
    · intro g' h; cases h; exact ⟨idx, full, .here idx, hw, hi⟩
  | cons n names ih =>
    cases hw with
    | @mk ds gs w1 w2 w3 w4 =>
    simp only [indexGroup] at hi
    obtain ⟨d, -, hi⟩ := bind_eq_ok.1 hi
    obtain ⟨gr, h2, hi⟩ := bind_eq_ok.1 hi
    obtain rfl := Outcome.ok.inj hi
    obtain ⟨i0, i1, i2⟩ := indexGroups_inv w3 h2
    have hn : (gr.map Prod.fst).Nodup := i0 ▸ w2
    constructor
    · intro idx' h
      cases h with
      | down h3 h4 =>
        have h5 := (mapGet_collect hn _ _).1 h3
        obtain ⟨g1, h6, h7⟩ := i1 _ _ h5
        obtain ⟨g2, full', h8, h9⟩ := (ih (w4 _ h6) h7).1 idx' h4
        exact ⟨g2, full', .down h6 h8, h9⟩
    · intro g' h
      cases h with
      | down h3 h4 =>
        obtain ⟨x, h5, h6⟩ := i2 _ _ h3
        obtain ⟨y, full', h7, h8⟩ := (ih (w4 _ h3) h6).2 g' h4
        exact ⟨y, full', .down ((mapGet_collect hn _ _).2 h5) h7, h8⟩

theorem index_datasets {p : Profile} {path : Option Name} {full : Name} {g : H5Group} {idx : GroupIndex}
    (hw : WellNamed g) (hi : indexGroup p path full g = ok idx) (d : Name) :
    (∀ x, mapGet idx.datasets d = some x ↔
      ∃ h, (d, h) ∈ g.datasets ∧ HasStorage h ∧ DatasetD.index p h = ok x) ∧
    ∀ h, (d, h) ∈ g.datasets → HasStorage h → ∃ x, DatasetD.index p h = ok x := by
  cases hw with
  | @mk ds gs w1 w2 w3 w4 =>
  simp only [indexGroup] at hi
  obtain ⟨r, h1, hi⟩ := bind_eq_ok.1 hi
  obtain ⟨gr, -, hi⟩ := bind_eq_ok.1 hi
  obtain rfl := Outcome.ok.inj hi
  obtain ⟨i0, i1, i2⟩ := indexDatasets_inv h1
  refine ⟨fun x => ?_, fun h => i2 d h⟩
  exact (mapGet_collect (i0.nodup w1) d x).trans (i1 d x)

theorem h5follows_unique {g a b : H5Group} {names : List Name} (hw : WellNamed g)
    (h1 : H5Follows g names a) (h2 : H5Follows g names b) : a = b := by
  induction names generalizing g with
  | nil => cases h1; cases h2; rfl
  | cons n names ih =>
    cases h1 with
    | @down _ x _ _ _ h3 h4 =>
      cases h2 with
      | @down _ y _ _ _ h5 h6 =>
        cases hw with
        | @mk ds gs w1 w2 w3 w4 =>
        have h3' : (n, x) ∈ gs := h3
        have h5' : (n, y) ∈ gs := h5
        have : x = y := by
          have := List.inj_on_of_nodup_map w2 h3' h5' rfl
          exact (Prod.mk.inj this).2
        subst this
        exact ih (w4 _ h3') h4 h6

/-- C38: after a file has been indexed, a path (names separated by slashes, any number of slashes in
front) resolves to a dataset exactly if the file has an allocated dataset there, and to its index. -/
theorem C38 {p : Profile} {fpath : Option Name} {root : H5Group} {idx : Index}
    (hw : WellNamed root) (hi : Index.indexFile p fpath root = ok idx) {names : List Name} {d : Name}
    (k : Nat) (hp : ∀ n ∈ names ++ [d], Plain n ∧ n ≠ []) (x : Dataset) :
    idx.root.dataset (List.replicate k sep ++ joinPath (names ++ [d])) = some x ↔
      ∃ h, HasDataset root names d h ∧ HasStorage h ∧ DatasetD.index p h = ok x := by
  unfold Index.indexFile at hi
  obtain ⟨g, h1, hi⟩ := bind_eq_ok.1 hi
  obtain rfl := Outcome.ok.inj hi
  rw [C36 k hp]
  constructor
  · rintro ⟨g', h2, h3⟩
    obtain ⟨hg, full', h4, h5, h6⟩ := (index_follows hw h1 names).1 g' h2
    obtain ⟨h, h7, h8⟩ := ((index_datasets h5 h6 d).1 x).1 h3
    exact ⟨h, ⟨hg, h4, h7⟩, h8⟩
  · rintro ⟨h, ⟨hg, h4, h7⟩, h8⟩
    obtain ⟨g', full', h9, h10, h11⟩ := (index_follows hw h1 names).2 hg h4
    exact ⟨g', h9, ((index_datasets h10 h11 d).1 x).2 ⟨h, h7, h8⟩⟩

/-- C38: the groups of the index are the groups of the file, and each has the path of the file. -/
theorem C38_groups {p : Profile} {fpath : Option Name} {root : H5Group} {idx : Index}
    (hw : WellNamed root) (hi : Index.indexFile p fpath root = ok idx) (names : List Name) :
    ((∃ g, Follows idx.root names g) ↔ ∃ hg, H5Follows root names hg) ∧
    ∀ g, Follows idx.root names g → g.path = fpath := by
  unfold Index.indexFile at hi
  obtain ⟨g, h1, hi⟩ := bind_eq_ok.1 hi
  obtain rfl := Outcome.ok.inj hi
  refine ⟨⟨?_, ?_⟩, ?_⟩
  · rintro ⟨g', h⟩
    obtain ⟨hg, _, h2, -⟩ := (index_follows hw h1 names).1 g' h
    exact ⟨hg, h2⟩
  · rintro ⟨hg, h⟩
    obtain ⟨g', _, h2, -⟩ := (index_follows hw h1 names).2 hg h
    exact ⟨g', h2⟩
  · intro g' h
    obtain ⟨hg, full', -, -, h2⟩ := (index_follows hw h1 names).1 g' h
    cases hg with
    | mk ds gs =>
      simp only [indexGroup] at h2
      obtain ⟨_, -, h2⟩ := bind_eq_ok.1 h2
      obtain ⟨_, -, h2⟩ := bind_eq_ok.1 h2
      obtain rfl := Outcome.ok.inj h2
      rfl

/-- C38: one allocated dataset that cannot be indexed, anywhere in the file, makes indexing fail. -/
theorem C38_fails {p : Profile} {fpath : Option Name} {root : H5Group} (hw : WellNamed root)
    {names : List Name} {d : Name} {h : H5Dataset} (hd : HasDataset root names d h)
    (ha : HasStorage h) (hbad : ∀ x, DatasetD.index p h ≠ ok x) (idx : Index) :
    Index.indexFile p fpath root ≠ ok idx := by
  intro hi
  unfold Index.indexFile at hi
  obtain ⟨g, h1, hi⟩ := bind_eq_ok.1 hi
  obtain ⟨hg, h4, h7⟩ := hd
  obtain ⟨g', full', h9, h10, h11⟩ := (index_follows hw h1 names).2 hg h4
  obtain ⟨x, hx⟩ := (index_datasets h10 h11 d).2 h h7 ha
  exact hbad x hx

mutual
theorem indexGroup_ok {p : Profile} {path : Option Name} (full : Name) : (g : H5Group) → WellNamed g →
    (∀ names d h, HasDataset g names d h → HasStorage h → ∃ x, DatasetD.index p h = ok x) →
    ∃ idx, indexGroup p path full g = ok idx
  | .mk ds gs, hw, hall => by
    have hds : ∃ r, indexDatasets p ds = ok r := by
      have hall' : ∀ m d, (m, d) ∈ ds → HasStorage d → ∃ x, DatasetD.index p d = ok x :=
        fun m d hd ha => hall [] m d ⟨_, .here _, hd⟩ ha
      clear hall hw
      induction ds with
      | nil => exact ⟨_, rfl⟩
      | cons e ds ih =>
        obtain ⟨m, d⟩ := e
        obtain ⟨r, hr⟩ := ih fun m d hd => hall' m d (by simp [hd])
        simp only [indexDatasets]
        split
        · obtain ⟨x, hx⟩ := hall' m d (by simp) (allocated_iff.1 (by assumption))
          rw [hx, ok_bind, hr, ok_bind]
          exact ⟨_, rfl⟩
        · exact ⟨r, hr⟩
    obtain ⟨r, hr⟩ := hds
    have hgs : ∃ q, indexGroups p path full gs = ok q := by
      cases hw with
      | mk w1 w2 w3 w4 =>
        exact indexGroups_ok full gs w3 w4 fun n g hg names d h hd ha =>
          hall (n :: names) d h (by
            obtain ⟨hg', h1, h2⟩ := hd
            exact ⟨hg', .down hg h1, h2⟩) ha
    obtain ⟨q, hq⟩ := hgs
    simp only [indexGroup]
    rw [hr, ok_bind, hq, ok_bind]
    exact ⟨_, rfl⟩
theorem indexGroups_ok {p : Profile} {path : Option Name} (full : Name) : (gs : List (Name × H5Group)) →
    (∀ e ∈ gs, Plain e.1) → (∀ e ∈ gs, WellNamed e.2) →
    (∀ n g, (n, g) ∈ gs → ∀ names d h, HasDataset g names d h → HasStorage h →
      ∃ x, DatasetD.index p h = ok x) →
    ∃ r, indexGroups p path full gs = ok r
  | [], _, _, _ => ⟨_, rfl⟩
  | (n, g) :: gs, hp, hw, hall => by
    obtain ⟨x, hx⟩ := indexGroup_ok (p := p) (path := path) (full ++ sep :: n) g (hw (n, g) (by simp))
      (hall n g (by simp))
    obtain ⟨r, hr⟩ := indexGroups_ok (p := p) (path := path) full gs (fun e he => hp e (by simp [he]))
      (fun e he => hw e (by simp [he])) (fun n g hg => hall n g (by simp [hg]))
    simp only [indexGroups, slash_eq]
    rw [hx, ok_bind, lastPiece_link (hp (n, g) (by simp)), ok_bind, hr, ok_bind]
    exact ⟨_, rfl⟩
end

/-- C38: and if every allocated dataset can be indexed, so can the file. -/
theorem C38_succeeds {p : Profile} {fpath : Option Name} {root : H5Group} (hw : WellNamed root)
    (hall : ∀ names d h, HasDataset root names d h → HasStorage h →
      ∃ x, DatasetD.index p h = ok x) : ∃ idx, Index.indexFile p fpath root = ok idx := by
  obtain ⟨g, hg⟩ := indexGroup_ok (p := p) (path := fpath) [] root hw hall
  unfold Index.indexFile
  rw [hg, ok_bind]
  exact ⟨_, rfl⟩

/-- A file with the demo dataset at `/a/b/x` and one that is not allocated at `/x`. -/
def demoRoot : H5Group :=
  .mk [([120], { demoH5 with isChunked := false })]
    [([97], .mk [] [([98], .mk [([120], demoH5)] [])])]

theorem demoRoot_wellNamed : WellNamed demoRoot := by
  refine .mk (by decide) (by decide) (by simp only [Plain]; decide) ?_
  intro e he
  rw [List.mem_singleton] at he
  subst he
  refine .mk (by decide) (by decide) (by simp only [Plain]; decide) ?_
  intro e he
  rw [List.mem_singleton] at he
  subst he
  exact .mk (by decide) (by decide) (by simp) (by simp)

theorem demoRoot_has : HasDataset demoRoot [[97], [98]] [120] demoH5 ∧ HasStorage demoH5 := by
  refine ⟨⟨.mk [([120], demoH5)] [], ?_, by simp [H5Group.datasets]⟩, .inl rfl⟩
  refine .down (g' := .mk [] [([98], .mk [([120], demoH5)] [])]) (by simp [demoRoot, H5Group.groups]) ?_
  exact .down (by simp [H5Group.groups]) (.here _)

end Hidefix.Props
