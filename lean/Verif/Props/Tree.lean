import Verif.Proofs.Tree
import Verif.Props.Tools

/-!
# C32, C33, C51, C58 for self-describing formats (flexbuffers), and the iteration order of maps
-/

set_option autoImplicit false

namespace Hidefix.Props
open Hidefix Hidefix.Spec Hidefix.Proofs Outcome

/-! ## The order of maps -/

theorem mapGet_perm {α : Type} {m m' : List (Name × α)} (hn : (m.map Prod.fst).Nodup) (hp : m.Perm m')
    (k : Name) : mapGet m k = mapGet m' k := by
  have hn' : (m'.map Prod.fst).Nodup := (hp.map _).nodup_iff.1 hn
  cases h : mapGet m k with
  | none =>
    rw [mapGet_none_iff] at h
    exact (mapGet_none_iff.2 fun h' => h ((hp.map _).symm.subset h')).symm
  | some a => exact (mapGet_of_mem hn' (hp.subset (mem_of_mapGet h))).symm

/-- Both are there, and the same, or neither is. -/
def SameOption : Option GroupIndex → Option GroupIndex → Prop
  | none, none => True
  | some a, some b => IsGroup a ∧ SameGroup a b
  | _, _ => False

theorem same_get {a b : GroupIndex} (ha : IsGroup a) (h : SameGroup a b) (n : Name) :
    SameOption (mapGet a.groups n) (mapGet b.groups n) := by
  cases ha with
  | @mk path ds gs _ _ _ _ _ g2 _ g4 =>
    cases h with
    | @mk _ _ ds' _ gs' h1 h2 h3 =>
      have hn' : (gs'.map Prod.fst).Nodup := h2.nodup_iff.1 g2
      show SameOption (mapGet gs n) (mapGet gs' n)
      cases h : mapGet gs n with
      | none =>
        rw [mapGet_none_iff] at h
        rw [mapGet_none_iff.2 fun h' => h (h2.symm.subset h')]
        trivial
      | some x =>
        have hx := mem_of_mapGet h
        obtain ⟨⟨n', y⟩, hy, rfl⟩ := List.mem_map.1 (h2.subset (List.mem_map_of_mem (f := Prod.fst) hx))
        rw [mapGet_of_mem hn' hy]
        exact ⟨g4 _ hx, h3 n' x y hx hy⟩

theorem same_walk {a b : GroupIndex} (ha : IsGroup a) (h : SameGroup a b) (ns : List Name) :
    SameOption (a.walk ns) (b.walk ns) := by
  induction ns generalizing a b with
  | nil => exact ⟨ha, h⟩
  | cons n ns ih =>
    have := same_get ha h n
    rw [GroupIndex.walk, GroupIndex.walk]
    cases h1 : mapGet a.groups n with
    | none =>
      cases h2 : mapGet b.groups n with
      | none => trivial
      | some y => rw [h1, h2] at this; exact this.elim
    | some x =>
      cases h2 : mapGet b.groups n with
      | none => rw [h1, h2] at this; exact this.elim
      | some y => rw [h1, h2] at this; exact ih this.1 this.2

theorem same_datasets {a b : GroupIndex} (ha : IsGroup a) (h : SameGroup a b) (n : Name) :
    mapGet a.datasets n = mapGet b.datasets n := by
  cases ha with
  | mk _ _ d2 =>
    cases h with
    | mk h1 => exact mapGet_perm d2 h1 n

/-- C32: the iteration order of the hash maps of an index cannot be observed by looking things up: two indices
that differ in nothing else have the same datasets at the same paths, and groups at the same paths, with the
same source path, the same dataset names and the same subgroup names. -/
theorem C32_order {i j : Index} (hi : IsIndex i) (h : SameIndex i j) (s : Name) :
    i.path = j.path ∧ i.root.dataset s = j.root.dataset s ∧
    ((i.root.group s).isSome ↔ (j.root.group s).isSome) ∧
    ∀ a b, i.root.group s = some a → j.root.group s = some b →
      a.path = b.path ∧ (∀ n, mapGet a.datasets n = mapGet b.datasets n) ∧
      (∀ s', a.dataset s' = b.dataset s') ∧ (a.datasets.map Prod.fst).Perm (b.datasets.map Prod.fst) ∧
      (a.groups.map Prod.fst).Perm (b.groups.map Prod.fst) := by
  have hds : ∀ {a b : GroupIndex}, IsGroup a → SameGroup a b → ∀ s, a.dataset s = b.dataset s := by
    intro a b ha h s
    unfold GroupIndex.dataset
    dsimp only
    cases (split (trimStart s)).getLast? with
    | none => rfl
    | some name =>
      have := same_walk ha h (split (trimStart s)).dropLast
      cases h1 : a.walk (split (trimStart s)).dropLast with
      | none =>
        cases h2 : b.walk (split (trimStart s)).dropLast with
        | none => rfl
        | some y => rw [h1, h2] at this; exact this.elim
      | some x =>
        cases h2 : b.walk (split (trimStart s)).dropLast with
        | none => rw [h1, h2] at this; exact this.elim
        | some y => rw [h1, h2] at this; exact same_datasets this.1 this.2 name
  have hg := same_walk hi.2 h.2 (split (trimEnd (trimStart s)))
  refine ⟨h.1, hds hi.2 h.2 s, ?_, ?_⟩
  · unfold GroupIndex.group
    cases h1 : i.root.walk (split (trimEnd (trimStart s))) <;>
      cases h2 : j.root.walk (split (trimEnd (trimStart s))) <;> rw [h1, h2] at hg
    all_goals first | exact Iff.rfl | exact False.elim hg | exact ⟨fun _ => rfl, fun _ => rfl⟩
  · intro a b ha hb
    unfold GroupIndex.group at ha hb
    rw [ha, hb] at hg
    obtain ⟨hg1, hg2⟩ := hg
    refine ⟨?_, same_datasets hg1 hg2, hds hg1 hg2, ?_, ?_⟩ <;> cases hg2 with
    | mk e1 e2 e3 => first | rfl | exact e1.map _ | exact e2

/-! ## Reading back -/

theorem saveTree_eq (i : Index) [Decidable (Utf8Paths i)] :
    i.saveTree = if Utf8Paths i then ok i.tree else err .decode := by
  have h := save_eq i
  unfold Index.save at h
  unfold Index.saveTree
  by_cases hu : Utf8Paths i
  · rw [if_pos hu] at h ⊢
    split at h
    · rename_i hc; rw [if_pos hc]
    · simp at h
  · rw [if_neg hu] at h ⊢
    split at h
    · simp at h
    · rename_i hc; rw [if_neg hc]

/-- C32, in a self-describing format (flexbuffers): an index whose paths are UTF-8 can be serialized, and
whatever order the format gives the entries of each map, deserializing gives the same index, up to the
iteration order of its maps (which cannot be observed: `C32_order`). -/
theorem C32_tree {i : Index} (h : IsIndex i) (hu : Utf8Paths i) :
    ∃ t, i.saveTree = ok t ∧ ∀ t', Reordered t t' → ∃ j, Index.ofTree t' = ok j ∧ SameIndex i j := by
  classical
  refine ⟨i.tree, by rw [saveTree_eq, if_pos hu], fun t' ht => ?_⟩
  refine index_tree h ?_ (pathUtf8_iff.2 hu.1) ht
  have e : (fun p => pathUtf8 p = true) = fun o : Option Name => ∀ p, o = some p → IsUtf8 p :=
    funext fun o => propext pathUtf8_iff
  rw [e]; exact hu.2

/-- C32: serializing an index with a path that is not UTF-8 is an error, in this format too. -/
theorem C32_tree_paths (i : Index) : (¬ Utf8Paths i → i.saveTree = err .decode) ∧
    (Utf8Paths i → ∃ t, i.saveTree = ok t) := by
  classical
  rw [saveTree_eq]
  exact ⟨fun h => if_neg h, fun h => ⟨_, if_pos h⟩⟩

/-- An index of two groups, one below the other. -/
def nested : Index :=
  ⟨some [47, 102], .mk none [] [([97], .mk (some [98]) [] []), ([98], .mk none [] [([99], .mk none [] [])])]⟩

theorem nested_isIndex : IsIndex nested ∧ Utf8Paths nested := by
  have hs : ∀ b : Byte, b ≤ 127 → IsStr [b] := fun b hb => ⟨utf8_iff.1 (by simp [utf8, hb]), by simp [FitsU64]⟩
  have hp : ∀ q : Option Name, q = none ∨ q = some [98] → IsPath q ∧ ∀ p, q = some p → IsUtf8 p := by
    rintro q (rfl | rfl)
    · exact ⟨by rintro p ⟨⟩, by rintro p ⟨⟩⟩
    · refine ⟨?_, ?_⟩ <;> rintro p hp <;> obtain rfl := Option.some.inj hp
      · simp [FitsU64]
      · exact (hs 98 (by decide)).1
  have leaf : ∀ q : Option Name, q = none ∨ q = some [98] → IsGroup (.mk q [] []) ∧
      AllPaths (fun o => ∀ p, o = some p → IsUtf8 p) (.mk q [] []) := fun q hq =>
    ⟨.mk (hp q hq).1 (by simp [FitsU64]) (by simp) (by simp) (by simp [FitsU64]) (by simp) (by simp) (by simp),
      .mk (hp q hq).2 (by simp)⟩
  refine ⟨⟨?_, ?_⟩, ?_, ?_⟩
  · rintro p hp; obtain rfl := Option.some.inj hp; simp [FitsU64]
  · refine .mk (hp none (.inl rfl)).1 (by simp [FitsU64]) (by simp) (by simp) (by simp [FitsU64]) (by simp) ?_ ?_
    · intro e he
      simp only [List.mem_cons, List.not_mem_nil, or_false] at he
      rcases he with rfl | rfl <;> exact hs _ (by decide)
    · intro e he
      simp only [List.mem_cons, List.not_mem_nil, or_false] at he
      rcases he with rfl | rfl
      · exact (leaf _ (.inr rfl)).1
      · refine .mk (hp none (.inl rfl)).1 (by simp [FitsU64]) (by simp) (by simp) (by simp [FitsU64]) (by simp) ?_ ?_
        · intro e he
          rw [List.mem_singleton] at he; subst he; exact hs _ (by decide)
        · intro e he
          rw [List.mem_singleton] at he; subst he; exact (leaf _ (.inl rfl)).1
  · rintro p hp; obtain rfl := Option.some.inj hp; exact utf8_iff.1 (by decide)
  · refine .mk (hp none (.inl rfl)).2 ?_
    intro e he
    simp only [List.mem_cons, List.not_mem_nil, or_false] at he
    rcases he with rfl | rfl
    · exact (leaf _ (.inr rfl)).2
    · refine .mk (hp none (.inl rfl)).2 ?_
      intro e he
      rw [List.mem_singleton] at he; subst he; exact (leaf _ (.inl rfl)).2

/-- It is read back from its tree, and from one with the top-level entries swapped (which is not the same
tree). -/
example : ∃ t' j, Reordered nested.tree t' ∧ t' ≠ nested.tree ∧ Index.ofTree t' = ok j ∧ SameIndex nested j := by
  obtain ⟨t, h1, h2⟩ := C32_tree nested_isIndex.1 nested_isIndex.2
  have ht : t = nested.tree := by
    classical
    rw [saveTree_eq, if_pos nested_isIndex.2] at h1
    exact (Outcome.ok.inj h1).symm
  subst ht
  have hr : Reordered nested.tree (.map [(ascii "root", nested.root.tree), (ascii "path", .str [47, 102])]) := by
    refine .map (.swap _ _ _) ?_
    intro n t t' h1 h2
    have hne : ascii "root" ≠ ascii "path" := by decide
    simp only [indexFields, List.zip_cons_cons, List.zip_nil_right, List.mem_cons, Prod.mk.injEq,
      List.not_mem_nil, or_false] at h1 h2
    rcases h1 with ⟨rfl, rfl⟩ | ⟨rfl, rfl⟩ <;> rcases h2 with ⟨h, rfl⟩ | ⟨h, rfl⟩
    · exact absurd h.symm hne
    · exact .same _
    · exact .same _
    · exact absurd h hne
  obtain ⟨j, h3, h4⟩ := h2 _ hr
  refine ⟨_, j, hr, ?_, h3, h4⟩
  intro h
  have hne : ascii "root" ≠ ascii "path" := by decide
  have := (Prod.mk.inj (List.cons.inj (Tree.map.inj h)).1).1
  exact hne this

/-! ## Anything else that is read -/

theorem orderly_fields (names : List Name) (t : Tree) : Orderly (fieldsOf names t) := by
  cases t <;> dsimp only [fieldsOf]
  case map => split <;> trivial
  case seq => split <;> trivial
  all_goals trivial

theorem fields_of {names : List Name} {t : Tree} {f : List (Option Tree)} (h : fieldsOf names t = ok f)
    (ht : InMemory t) (k : Nat) {x : Tree} (hx : f.getD k none = some x) :
    x.depth < t.depth ∧ InMemory x := by
  have hmem : some x ∈ f := by
    rw [List.getD_eq_getElem?_getD] at hx
    cases hk : f[k]? with
    | none => rw [hk] at hx; simp at hx
    | some y =>
      rw [hk] at hx
      simp only [Option.getD_some] at hx
      subst hx
      exact List.mem_of_getElem? hk
  cases t with
  | map l =>
    rw [fieldsOf] at h
    split at h
    · obtain rfl := Outcome.ok.inj h
      obtain ⟨n, -, hn⟩ := List.mem_map.1 hmem
      have := mem_of_mapGet hn
      cases ht with
      | map _ _ h3 => exact ⟨depth_mem this, h3 _ this⟩
    · simp at h
  | seq l =>
    rw [fieldsOf] at h
    split at h
    · obtain rfl := Outcome.ok.inj h
      obtain ⟨n, hm, hn⟩ := List.mem_map.1 hmem
      obtain rfl := Option.some.inj hn
      have := List.mem_of_mem_take hm
      cases ht with
      | seq _ h3 => exact ⟨depth_seq_mem this, h3 _ this⟩
    · simp at h
  | null => simp [fieldsOf] at h
  | bool => simp [fieldsOf] at h
  | uint => simp [fieldsOf] at h
  | int => simp [fieldsOf] at h
  | bytes => simp [fieldsOf] at h
  | str => simp [fieldsOf] at h
  | other => simp [fieldsOf] at h

/-- Reading `x` is orderly, and what it yields satisfies `P`. -/
def Gives {α : Type} (x : Outcome α) (P : α → Prop) : Prop := Orderly x ∧ ∀ a, x = ok a → P a

theorem Gives.bind {α β : Type} {x : Outcome α} {f : α → Outcome β} {P : α → Prop} {Q : β → Prop}
    (h : Gives x P) (hf : ∀ a, P a → Gives (f a) Q) : Gives (x >>= f) Q := by
  refine ⟨h.1.bind fun a ha => (hf a (h.2 a ha)).1, fun b hb => ?_⟩
  obtain ⟨a, h1, h2⟩ := bind_eq_ok.1 hb
  exact (hf a (h.2 a h1)).2 b h2

theorem Gives.done {α : Type} {a : α} {P : α → Prop} (h : P a) : Gives (ok a) P :=
  ⟨trivial, fun b hb => by rw [← Outcome.ok.inj hb]; exact h⟩

theorem Gives.fail {α : Type} {P : α → Prop} : Gives (err .decode : Outcome α) P :=
  ⟨rfl, fun b hb => by simp at hb⟩

theorem Gives.mono {α : Type} {x : Outcome α} {P Q : α → Prop} (h : Gives x P) (hq : ∀ a, P a → Q a) :
    Gives x Q := ⟨h.1, fun a ha => hq a (h.2 a ha)⟩

theorem gives_required {α : Type} {d : Tree → Outcome α} {o : Option Tree} {P : α → Prop}
    (h : ∀ t, o = some t → Gives (d t) P) : Gives (required d o) P := by
  cases o with
  | none => exact .fail
  | some t => exact h t rfl

theorem gives_optional {α : Type} {d : Tree → Outcome α} {o : Option Tree} {P : α → Prop}
    (h : ∀ t, o = some t → Gives (d t) P) : Gives (optional d o) fun z => ∀ x, z = some x → P x := by
  have hs : ∀ t, o = some t → Gives (d t >>= fun a => ok (some a)) fun z => ∀ x, z = some x → P x := fun t ht =>
    (h t ht).bind fun a ha => .done fun x hx => by rw [← Option.some.inj hx]; exact ha
  cases o with
  | none => exact .done fun x hx => by simp at hx
  | some t =>
    cases t <;> first | exact hs _ rfl | exact .done fun x hx => by simp at hx

theorem gives_uint (k : Nat) (t : Tree) : Gives (ofTreeUint k t) fun n => n < 256 ^ k := by
  cases t <;> dsimp only [ofTreeUint]
  case uint n =>
    split
    · rename_i h; exact .done h
    · exact .fail
  case int i =>
    split
    · rename_i h
      refine .done ?_
      have h1 : ((i.toNat : Nat) : Int) = i := Int.toNat_of_nonneg h.1
      have h2 : ((i.toNat : Nat) : Int) < ((256 ^ k : Nat) : Int) := by
        rw [h1]; push_cast; exact h.2
      exact_mod_cast h2
    · exact .fail
  all_goals exact .fail

theorem gives_u64 (t : Tree) : Gives (ofTreeUint 8 t) FitsU64 :=
  (gives_uint 8 t).mono fun n hn => by unfold FitsU64; omega

theorem gives_all {α β : Type} {d : α → Outcome β} {l : List α} {P : β → Prop}
    (h : ∀ a ∈ l, Gives (d a) P) : Gives (allOf d l) fun r => r.length = l.length ∧ ∀ b ∈ r, P b := by
  induction l with
  | nil => exact .done ⟨rfl, by simp⟩
  | cons a l ih =>
    refine (h a (by simp)).bind fun b hb => ?_
    refine (ih fun x hx => h x (by simp [hx])).bind fun r hr => .done ⟨by simp [hr.1], ?_⟩
    intro x hx
    rcases List.mem_cons.1 hx with rfl | hx
    · exact hb
    · exact hr.2 x hx

theorem gives_vec (t : Tree) : Gives (ofTreeVec t) fun l => ∀ x ∈ l, FitsU64 x := by
  cases t <;> unfold ofTreeVec
  case seq l => exact (gives_all fun a _ => gives_u64 a).mono fun r hr => hr.2
  all_goals exact .fail

theorem gives_arr (D : Nat) (t : Tree) : Gives (ofTreeArr D t) (IsArr D) :=
  (gives_vec t).bind fun l hl => .done ⟨by simp; omega, by
    intro x hx
    rcases List.mem_append.1 hx with h | h
    · exact hl x (List.mem_of_mem_take h)
    · rw [List.mem_replicate] at h; rw [h.2]; unfold FitsU64; omega⟩

theorem gives_sr (D : Nat) (t : Tree) : Gives (ofTreeSr D t) fun l => IsArr D l ∧ ∀ x ∈ l, x ≠ 0 :=
  (gives_vec t).bind fun l hl => by
    unfold ensure
    by_cases hD : (l.length == D) = true
    · rw [if_pos hD]
      unfold strengthReduce
      show Gives (if _ then _ else _) _
      split
      · rename_i h0
        exact .done ⟨⟨by simpa using hD, hl⟩, by simpa using h0⟩
      · exact ⟨.inr (.inr rfl), fun a ha => by simp at ha⟩
    · rw [if_neg hD]
      exact .fail

theorem gives_bytes {t : Tree} (h : InMemory t) : Gives (ofTreeBytes t) fun b => FitsU64 b.length := by
  cases h <;> unfold ofTreeBytes <;> first | exact .fail | exact .done ‹_›

theorem gives_path {t : Tree} (h : InMemory t) : Gives (ofTreePath t) IsStr := by
  cases h <;> dsimp only [ofTreePath] <;> first
    | exact .fail
    | (split
       · exact .done ⟨utf8_iff.1 ‹_›, ‹_›⟩
       · exact .fail)

theorem gives_chunks (D : Nat) {t : Tree} (h : InMemory t) : Gives (ofTreeChunks D t) fun l =>
    (∀ c ∈ l, IsChunk D c) ∧ FitsU64 (l.length * (8 * (D + 2))) :=
  (gives_bytes h).bind fun b hb => by
    by_cases h8 : b.length % 8 = 0
    · by_cases hD : b.length / 8 % (D + 2) = 0
      · simp only [h8, hD, if_true]
        refine .done ⟨?_, ?_⟩
        · intro c hc
          obtain ⟨w, hw, rfl⟩ := List.mem_map.1 hc
          exact chunk_ofBytes_typed (words_mem hw)
        · rw [List.length_map]
          unfold words
          rw [List.length_map, List.length_range]
          have := Nat.div_mul_le_self b.length (8 * (D + 2))
          unfold FitsU64 at *
          omega
      · simp only [h8, hD, if_true, if_false]
        exact ⟨.inr (.inl rfl), fun a ha => by simp at ha⟩
    · simp only [h8, if_false]
      exact ⟨.inl rfl, fun a ha => by simp at ha⟩

theorem gives_variant {t : Tree} (h : InMemory t) :
    Gives (variantOf t) fun v => ∀ x, v.2 = some x → InMemory x := by
  cases h with
  | map h1 h2 h3 =>
    rename_i l
    cases l with
    | nil => exact .fail
    | cons e l =>
      exact .done fun x hx => by rw [← Option.some.inj hx]; exact h3 e (by simp)
  | str => exact .done fun x hx => by simp at hx
  | _ => exact .fail

theorem gives_datatype {t : Tree} (h : InMemory t) : Gives (ofTreeDatatype t) fun x => FitsU64 x.dsize :=
  (gives_variant h).bind fun v _ => by
    obtain ⟨v, c⟩ := v
    dsimp only
    repeat' split
    all_goals first
      | exact .fail
      | exact (gives_required fun t _ => gives_u64 t).bind fun n hn => .done hn

theorem gives_order {t : Tree} (h : InMemory t) : Gives (ofTreeOrder t) fun _ => True :=
  (gives_variant h).bind fun v _ => by
    obtain ⟨v, c⟩ := v
    dsimp only
    repeat' split
    all_goals first | exact .fail | exact .done trivial

theorem gives_bool (t : Tree) : Gives (ofTreeBool t) fun _ => True := by
  cases t <;> unfold ofTreeBool <;> first | exact .fail | exact .done trivial

theorem gives_fields (names : List Name) {t : Tree} (h : InMemory t) : Gives (fieldsOf names t) fun f =>
    ∀ k x, f.getD k none = some x → x.depth < t.depth ∧ InMemory x :=
  ⟨orderly_fields names t, fun _ hf k _ hx => fields_of hf h k hx⟩

theorem gives_dataset {D : Nat} (hD : D ≤ 9) {t : Tree} (h : InMemory t) :
    Gives (ofTreeDataset D t) IsDataset := by
  refine (gives_fields _ h).bind fun f hf => ?_
  refine (gives_required fun t ht => gives_datatype (hf _ _ ht).2).bind fun t ht => ?_
  refine (gives_required fun t _ => gives_u64 t).bind fun sz hsz => ?_
  refine (gives_required fun t ht => gives_order (hf _ _ ht).2).bind fun o _ => ?_
  refine (gives_required fun t ht => gives_chunks D (hf _ _ ht).2).bind fun ch hch => ?_
  refine (gives_required fun t _ => gives_arr D t).bind fun s hs => ?_
  refine (gives_required fun t _ => gives_arr D t).bind fun cs hcs => ?_
  refine (gives_required fun t _ => gives_sr D t).bind fun sr hsr => ?_
  refine (gives_required fun t _ => gives_arr D t).bind fun a1 h1 => ?_
  refine (gives_required fun t _ => gives_arr D t).bind fun a2 h2 => ?_
  refine (gives_required fun t _ => gives_arr D t).bind fun a3 h3 => ?_
  refine (gives_required fun t _ => gives_bool t).bind fun b _ => ?_
  refine (gives_optional fun t _ => gives_uint 1 t).bind fun z hz => .done ?_
  obtain ⟨rfl, -⟩ := id hs
  exact ⟨by simp only; omega, ht, hsz, hch.1, hch.2, hs, hcs, hsr.1, hsr.2, h1, h2, h3,
    fun q hq => by have := hz q hq; omega⟩

theorem gives_rank (v : Name) : Gives (rankOf v) fun D => D ≤ 9 := by
  unfold rankOf
  cases h : variantNames.findIdx? (· == v) with
  | none => exact .fail
  | some D =>
    refine .done ?_
    have := (List.findIdx?_eq_some_iff_getElem.1 h).1
    have hl : variantNames.length = 10 := rfl
    omega

theorem gives_datasetD {t : Tree} (h : InMemory t) : Gives (ofTreeDatasetD t) IsDataset :=
  (gives_variant h).bind fun v hv => by
    obtain ⟨v, c⟩ := v
    exact (gives_rank v).bind fun D hD => gives_required fun t ht => gives_dataset hD (hv t ht)

theorem gives_map {α : Type} {d : Tree → Outcome α} {P : α → Prop} {t : Tree} (ht : InMemory t)
    (h : ∀ x, InMemory x → x.depth < t.depth → Gives (d x) P) :
    Gives (ofTreeMap d t) fun m => FitsU64 m.length ∧ (m.map Prod.fst).Nodup ∧
      ∀ e ∈ m, IsStr e.1 ∧ P e.2 := by
  cases ht with
  | map h1 h2 h3 =>
    rename_i l
    have he : ∀ e ∈ l, Gives (ofTreeEntry d e) fun e : Name × α => IsStr e.1 ∧ P e.2 := by
      intro e he
      unfold ofTreeEntry
      split
      · rename_i hu
        exact (h e.2 (h3 e he) (depth_mem (n := e.1) he)).bind fun a ha =>
          .done ⟨⟨utf8_iff.1 hu, h2 e he⟩, ha⟩
      · exact .fail
    refine (gives_all he).bind fun r hr => .done ?_
    obtain ⟨k1, k2, k3⟩ := mapCollect_typed r
    exact ⟨by unfold FitsU64 at *; omega, k1, fun e he => hr.2 e (k3 e he)⟩
  | _ => exact .fail

theorem gives_group {depth : Nat} {t : Tree} (ht : InMemory t) (h : t.depth < depth) :
    Gives (ofTreeGroup depth t) fun g => IsGroup g ∧ AllPaths (fun p => pathUtf8 p = true) g := by
  induction depth generalizing t with
  | zero => omega
  | succ depth ih =>
    refine (gives_fields _ ht).bind fun f hf => ?_
    refine (gives_optional fun t ht => gives_path (hf _ _ ht).2).bind fun p hp => ?_
    refine (gives_required fun t ht => gives_map (hf _ _ ht).2 fun x hx _ => gives_datasetD hx).bind fun ds hds => ?_
    refine (gives_required fun t' ht' => gives_map (hf _ _ ht').2 fun x hx hd =>
      ih hx (by have := (hf _ _ ht').1; omega)).bind fun gs hgs => .done ⟨?_, ?_⟩
    · exact .mk (fun q hq => (hp q hq).2) hds.1 hds.2.1 hds.2.2 hgs.1 hgs.2.1 (fun e he => (hgs.2.2 e he).1)
        fun e he => (hgs.2.2 e he).2.1
    · refine .mk ?_ fun e he => (hgs.2.2 e he).2.2
      cases p with
      | none => rfl
      | some q => exact utf8_iff.2 (hp q rfl).1

/-- C33 in a self-describing format: whatever tree is stored, deserializing it returns, with no undefined
behaviour; if it succeeds, the result is a proper index that can be serialized again, and the panics are those of
`C33_panics`. What is missing: as in `C33_partial`. -/
theorem C33_tree_partial {t : Tree} (h : InMemory t) :
    Index.ofTree t ≠ ub ∧ Index.ofTree t ≠ diverge ∧
    (∀ f, Index.ofTree t = .panic f → f = .unwrap ∨ f = .assertion ∨ f = .divZero) ∧
    ∀ i, Index.ofTree t = ok i → IsIndex i ∧ ∃ t', i.saveTree = ok t' ∧
      ∃ j, Index.ofTree t' = ok j ∧ SameIndex i j := by
  have ht : Gives (Index.ofTree t) fun i => IsIndex i ∧ Utf8Paths i := by
    refine (gives_fields _ h).bind fun f hf => ?_
    refine (gives_optional fun t ht => gives_path (hf _ _ ht).2).bind fun p hp => ?_
    refine (gives_required fun t' ht' => gives_group (hf _ _ ht').2
      (by have := (hf _ _ ht').1; omega)).bind fun g hg => .done ⟨⟨fun q hq => (hp q hq).2, hg.1⟩,
        fun q hq => (hp q hq).1, ?_⟩
    have e : (fun p => pathUtf8 p = true) = fun o : Option Name => ∀ p, o = some p → IsUtf8 p :=
      funext fun o => propext pathUtf8_iff
    rw [← e]; exact hg.2
  obtain ⟨h1, h2⟩ := ht
  refine ⟨?_, ?_, ?_, ?_⟩
  · intro h; rw [h] at h1; exact h1
  · intro h; rw [h] at h1; exact h1
  · intro f h; rw [h] at h1; exact h1
  · intro i hi
    obtain ⟨k1, k2⟩ := h2 i hi
    obtain ⟨t', e1, e2⟩ := C32_tree k1 k2
    exact ⟨k1, t', e1, e2 t' (.same _)⟩

/-- A tree that lacks the field `root` is rejected; one that has it twice too. -/
example : Index.ofTree (.map [(ascii "path", .null)]) = err .decode ∧
    Index.ofTree (.map [(ascii "root", .null), (ascii "root", .null)]) = err .decode := by
  constructor <;> rfl

/-! ## The tools -/

/-- flexbuffers, given how it writes a tree as bytes and reads it back. -/
def flexFormat (write : Tree → List Byte) (read : List Byte → Outcome Tree) : Format :=
  ⟨fun i => i.saveTree >>= fun t => ok (write t), fun b => read b >>= Index.ofTree⟩

theorem lists_same {input : Name} {root : H5Group} {i j : Index} (h : SameIndex i j)
    (hl : Lists input root ⟨i.root.path, i.root.datasets.map fun e => (e.1, e.2.shape)⟩) :
    Lists input root ⟨j.root.path, j.root.datasets.map fun e => (e.1, e.2.shape)⟩ := by
  obtain ⟨ip, ir⟩ := i
  obtain ⟨jp, jr⟩ := j
  obtain ⟨-, hg⟩ := h
  dsimp only at hg hl ⊢
  cases hg with
  | mk h1 =>
    obtain ⟨l1, l2, l3⟩ := hl
    refine ⟨l1, ?_, fun n s => ?_⟩
    · exact ((h1.map _).map _).nodup_iff.1 l2
    · rw [← l3 n s]
      exact ((h1.map fun e => (e.1, e.2.shape)).mem_iff).symm

/-- C58 with flexbuffers: as `C58_partial`, if flexbuffers gives back the tree it wrote, up to the order of the
entries of maps. What is missing: what flexbuffers makes of bytes that were cut short. -/
theorem C58_flexbuffers_partial {p : Profile} {f : Features} {write : Tree → List Byte}
    {read : List Byte → Outcome Tree} {h5 : Name → Option H5Group}
    {fs fs' : Fs} {input output : Name} {ty : OutType} {root : H5Group} {o : Outcome Unit}
    (hpath : FitsU64 input.length ∧ IsUtf8 input) (h5f : h5 input = some root)
    (hroot : IsH5Group root) (hw : WellNamed root) (hx : f.flexbuffers = some (flexFormat write read))
    (hround : ∀ idx t, Index.indexFile p (some input) root = ok idx → idx.saveTree = ok t →
      ∃ t', read (write t) = ok t' ∧ Reordered t t')
    (hty : ty = .flexbuffers ∨ ty = .any) (hrun : HfxIdx p f h5 fs input output ty o fs') :
    (∀ q, q ≠ output → fs' q = fs q) ∧
    (o = ok () → ∃ l, hfxlst f fs' output = ok l ∧ Lists input root l) := by
  have hset : ∀ b q, q ≠ output → (fs.set output b) q = fs q := by
    intro b q hq
    simp [Fs.set, hq]
  cases hrun with
  | failed o h hne => exact ⟨fun _ _ => rfl, fun h => absurd h hne⟩
  | wrote bytes h o fs' hwr =>
    cases hwr with
    | notOpened => exact ⟨fun _ _ => rfl, fun h => by simp at h⟩
    | interrupted n => exact ⟨hset _, fun h => by simp at h⟩
    | done =>
      refine ⟨hset _, fun _ => ?_⟩
      unfold hfxidxBytes at h
      obtain ⟨idx, h1, h2⟩ := bind_eq_ok.1 h
      have h2 : (flexFormat write read).write idx = ok bytes := by
        rcases hty with rfl | rfl <;> simpa [hx] using h2
      have hi : Index.indexFile p (some input) root = ok idx := by simpa [Index.index, h5f] using h1
      obtain ⟨t, h3, h4⟩ := bind_eq_ok.1 h2
      obtain rfl := Outcome.ok.inj h4
      have hidx : IsIndex idx := by
        have hi' := hi
        unfold Index.indexFile at hi'
        obtain ⟨g, hg, hi'⟩ := bind_eq_ok.1 hi'
        obtain rfl := Outcome.ok.inj hi'
        have hp : IsPath (some input) := by
          rintro s hs; obtain rfl := Option.some.inj hs; exact hpath.1
        exact ⟨hp, (indexed_group hp hroot hw hg).1⟩
      have hu : Utf8Paths idx := by
        by_contra hn
        rw [(C32_tree_paths idx).1 hn] at h3
        simp at h3
      obtain ⟨t0, e1, e2⟩ := C32_tree hidx hu
      rw [h3] at e1
      obtain rfl := Outcome.ok.inj e1
      obtain ⟨t', e3, e4⟩ := hround idx t hi h3
      obtain ⟨j, e5, e6⟩ := e2 t' e4
      refine ⟨_, ?_, lists_same e6 (lists_index hw hi)⟩
      unfold hfxlst readIndex
      simp [Fs.set, hx, flexFormat, e3, e5]

/-- The hypothesis can be met: an index of the demo file has a tree, and a format that knows this tree reads it
back. -/
example (p : Profile) {idx : Index} (hi : Index.indexFile p (some [47, 102]) demoRoot = ok idx) :
    ∃ (t : Tree) (read : List Byte → Outcome Tree), idx.saveTree = ok t ∧ ∀ idx' t', Index.indexFile p (some [47, 102]) demoRoot = ok idx' →
      idx'.saveTree = ok t' → ∃ t'', read ((fun _ => [1] : Tree → List Byte) t') = ok t'' ∧ Reordered t' t'' := by
  obtain ⟨bytes, hb, -⟩ := C32_indexed (p := p) (fpath := some [47, 102])
    (by rintro s hs; obtain rfl := Option.some.inj hs; simp [FitsU64])
    (by rintro s hs; obtain rfl := Option.some.inj hs; exact utf8_iff.1 (by decide)) demoRoot_isH5
    demoRoot_wellNamed hi
  have hu : Utf8Paths idx := by
    by_contra hn
    rw [(C32_paths idx).1 hn] at hb
    simp at hb
  obtain ⟨t, ht⟩ := (C32_tree_paths idx).2 hu
  refine ⟨t, fun b => if b = [1] then ok t else err .decode, ht, ?_⟩
  intro idx' t' h1 h2
  rw [hi] at h1
  obtain rfl := Outcome.ok.inj h1
  rw [ht] at h2
  obtain rfl := Outcome.ok.inj h2
  exact ⟨t, by simp, .same _⟩

end Hidefix.Props
