import Verif.Spec.Links
import Verif.Props.Groups
import Verif.Proofs.Hang
import Mathlib.Order.OrderIsoNat

/-!
# Properties C93 and C94: indexing a file as HDF5 presents it
-/

set_option autoImplicit false

namespace Hidefix.Props
open Hidefix Hidefix.Spec Hidefix.Proofs Hidefix.Hang Outcome

/-! ## The last part of a name -/

theorem exists_isLast (name : Name) : ∃ key, IsLast name key := by
  induction name with
  | nil => exact ⟨[], by simp [Plain], .inl rfl⟩
  | cons b s ih =>
    obtain ⟨key, hk, rfl | ⟨front, rfl⟩⟩ := ih
    · by_cases hb : b = sep
      · exact ⟨s, hk, .inr ⟨[], by simp [hb]⟩⟩
      · refine ⟨b :: s, ?_, .inl rfl⟩
        simp only [Plain, List.mem_cons, not_or]
        exact ⟨fun h => hb h.symm, hk⟩
    · exact ⟨key, hk, .inr ⟨b :: front, by simp⟩⟩

theorem lastPiece_of_isLast {name key : Name} (h : IsLast name key) : lastPiece name = ok key := by
  obtain ⟨hk, rfl | ⟨front, rfl⟩⟩ := h
  · simp [lastPiece, split_plain hk]
  · exact lastPiece_link hk

theorem lastPiece_iff {name key : Name} : lastPiece name = ok key ↔ IsLast name key := by
  refine ⟨fun h => ?_, lastPiece_of_isLast⟩
  obtain ⟨key', hk⟩ := exists_isLast name
  have := lastPiece_of_isLast hk
  rw [this] at h
  cases h
  exact hk

theorem isLast_unique {name a b : Name} (ha : IsLast name a) (hb : IsLast name b) : a = b := by
  have h1 := lastPiece_of_isLast ha
  rw [lastPiece_of_isLast hb] at h1
  cases h1; rfl

/-! ## Lists of outcomes -/

theorem mapM_forall₂ {α β : Type} {f : α → Outcome β} {l : List α} {r : List β} (h : l.mapM f = ok r) :
    List.Forall₂ (fun a b => f a = ok b) l r := by
  induction l generalizing r with
  | nil => rw [List.mapM_nil] at h; cases h; exact .nil
  | cons a l ih =>
    rw [List.mapM_cons] at h
    cases ha : f a with
    | ok b =>
      rw [ha] at h
      cases hl : l.mapM f with
      | ok r' =>
        rw [hl] at h
        cases h
        exact .cons ha (ih hl)
      | _ => rw [hl] at h; cases h
    | _ => rw [ha] at h; cases h

theorem mapM_congr_mem {α β : Type} {f g : α → Outcome β} {l : List α} (h : ∀ a ∈ l, f a = g a) :
    l.mapM f = l.mapM g := by
  induction l with
  | nil => rfl
  | cons a l ih =>
    rw [List.mapM_cons, List.mapM_cons, h a (by simp), ih fun b hb => h b (by simp [hb])]

theorem noHang_mapM_mem {α β : Type} {f : α → Outcome β} {l : List α} (h : ∀ a ∈ l, NoHang (f a)) :
    NoHang (l.mapM f) := by
  induction l with
  | nil => rw [List.mapM_nil]; exact noHang_ok _
  | cons a l ih =>
    rw [List.mapM_cons]
    exact (h a (by simp)).bind fun b => (ih fun c hc => h c (by simp [hc])).bind fun _ => noHang_ok _

/-- Success or no end. -/
def OkOrHang {α : Type} (x : Outcome α) : Prop := (∃ a, x = ok a) ∨ x = diverge

theorem OkOrHang.bind {α β : Type} {x : Outcome α} {f : α → Outcome β} (hx : OkOrHang x)
    (hf : ∀ a, x = ok a → OkOrHang (f a)) : OkOrHang (x >>= f) := by
  rcases hx with ⟨a, rfl⟩ | rfl
  · exact hf a rfl
  · exact .inr rfl

theorem okOrHang_ok {α : Type} (a : α) : OkOrHang (ok a) := .inl ⟨a, rfl⟩

theorem okOrHang_mapM_mem {α β : Type} {f : α → Outcome β} {l : List α} (h : ∀ a ∈ l, OkOrHang (f a)) :
    OkOrHang (l.mapM f) := by
  induction l with
  | nil => rw [List.mapM_nil]; exact okOrHang_ok _
  | cons a l ih =>
    rw [List.mapM_cons]
    exact (h a (by simp)).bind fun b _ => (ih fun c hc => h c (by simp [hc])).bind fun _ _ => okOrHang_ok _

/-! ## One group -/

/-- What a successful indexing of a group did. -/
theorem indexNode_inv {p : Profile} {path : Option Name} {f : H5Links} {fuel n : Nat} {idx : GroupIndex}
    (h : indexNode p path f fuel n = ok idx) : ∃ fuel' ms gs d g, fuel = fuel' + 1 ∧
      (f n).members = some ms ∧ indexDatasets p (opened ms) = ok d ∧ (f n).groups = some gs ∧
      List.Forall₂ (fun e x => IsLast e.1 x.1 ∧ indexNode p path f fuel' e.2 = ok x.2) gs g ∧
      idx = .mk path (mapCollect d) (mapCollect g) := by
  cases fuel with
  | zero => simp [indexNode] at h
  | succ fuel =>
    unfold indexNode at h
    cases hms : (f n).members with
    | none => rw [hms] at h; cases h
    | some ms =>
      rw [hms] at h
      change (indexDatasets p (opened ms) >>= _) = _ at h
      cases hd : indexDatasets p (opened ms) with
      | ok d =>
        rw [hd] at h
        change (answered (f n).groups >>= _) = _ at h
        cases hgs : (f n).groups with
        | none => rw [hgs] at h; cases h
        | some gs =>
          rw [hgs] at h
          simp only [answered, Outcome.ok_bind] at h
          generalize hF : (fun e : Name × Nat => (do
            let x ← indexNode p path f fuel e.2
            let key ← lastPiece e.1
            ok (key, x) : Outcome (Name × GroupIndex))) = F at h
          cases hg : gs.mapM F with
          | ok g =>
            rw [hg] at h
            cases h
            refine ⟨fuel, ms, gs, d, g, rfl, rfl, hd, rfl, ?_, rfl⟩
            refine (mapM_forall₂ hg).imp fun e x hx => ?_
            subst hF
            simp only at hx
            cases hi : indexNode p path f fuel e.2 with
            | ok y =>
              rw [hi] at hx
              change (lastPiece e.1 >>= _) = _ at hx
              cases hk : lastPiece e.1 with
              | ok key => rw [hk] at hx; cases hx; exact ⟨lastPiece_iff.1 hk, rfl⟩
              | _ => rw [hk] at hx; cases hx
            | _ => rw [hi] at hx; cases hx
          | _ => rw [hg] at h; cases h
      | _ => rw [hd] at h; cases h

theorem forall₂_mem_left {α β : Type} {R : α → β → Prop} {l : List α} {r : List β}
    (h : List.Forall₂ R l r) {a : α} (ha : a ∈ l) : ∃ b ∈ r, R a b := by
  induction h with
  | nil => simp at ha
  | cons hab _ ih =>
    rcases List.mem_cons.1 ha with rfl | ha
    · exact ⟨_, by simp, hab⟩
    · obtain ⟨b, hb, hR⟩ := ih ha
      exact ⟨b, by simp [hb], hR⟩

theorem forall₂_mem_right {α β : Type} {R : α → β → Prop} {l : List α} {r : List β}
    (h : List.Forall₂ R l r) {b : β} (hb : b ∈ r) : ∃ a ∈ l, R a b := by
  induction h with
  | nil => simp at hb
  | cons hab _ ih =>
    rcases List.mem_cons.1 hb with rfl | hb
    · exact ⟨_, by simp, hab⟩
    · obtain ⟨a, ha, hR⟩ := ih hb
      exact ⟨a, by simp [ha], hR⟩

/-- Every group that is visited has been indexed. -/
theorem indexed_of_leads {p : Profile} {path : Option Name} {f : H5Links} {n m : Nat} {names : List Name}
    (hl : Leads f n names m) : ∀ {fuel : Nat} {idx : GroupIndex}, indexNode p path f fuel n = ok idx →
      ∃ fuel' idx', indexNode p path f fuel' m = ok idx' := by
  induction hl with
  | here => exact fun h => ⟨_, _, h⟩
  | down hi _ ih =>
    intro fuel idx h
    obtain ⟨fuel', ms, gs, d, g, -, -, -, hgs, hF, -⟩ := indexNode_inv h
    obtain ⟨gs', name, hgs', hm, -⟩ := hi
    rw [hgs] at hgs'
    cases hgs'
    obtain ⟨x, -, -, hx⟩ := forall₂_mem_left hF hm
    exact ih hx

theorem named_inside {f : H5Links} {a b : Nat} {key : Name} (h : Named f a) (hi : Inside f a key b) :
    Named f b := by
  rintro n ⟨names, hn⟩
  exact h n ⟨key :: names, .down hi hn⟩

theorem leads_append {f : H5Links} {a b c : Nat} {p q : List Name} (h1 : Leads f a p b)
    (h2 : Leads f b q c) : Leads f a (p ++ q) c := by
  induction h1 with
  | here => exact h2
  | down hi _ ih => exact .down hi (ih h2)

theorem keys_nodup {p : Profile} {path : Option Name} {f : H5Links} {fuel n : Nat}
    {gs : List (Name × Nat)} {g : List (Name × GroupIndex)} (hN : Named f n)
    (hgs : (f n).groups = some gs)
    (hF : List.Forall₂ (fun e x => IsLast e.1 x.1 ∧ indexNode p path f fuel e.2 = ok x.2) gs g) :
    (g.map Prod.fst).Nodup := by
  have hp := (hN n ⟨[], .here n⟩).2 gs hgs
  clear hgs hN
  induction hF with
  | nil => simp
  | @cons e x gs g hx hF ih =>
    rw [List.pairwise_cons] at hp
    rw [List.map_cons, List.nodup_cons]
    refine ⟨fun hm => ?_, ih hp.2⟩
    obtain ⟨y, hy, hxy⟩ := List.mem_map.1 hm
    obtain ⟨e', he', hl, -⟩ := forall₂_mem_right hF hy
    exact hp.1 e' he' x.1 hx.1 (hxy ▸ hl)

/-- The groups of the index are the groups of the file. -/
theorem node_follows {p : Profile} {path : Option Name} {f : H5Links} {names : List Name} :
    ∀ {fuel n : Nat} {idx : GroupIndex}, Named f n → indexNode p path f fuel n = ok idx →
    (∀ idx', Follows idx names idx' → ∃ m fuel', Leads f n names m ∧ indexNode p path f fuel' m = ok idx') ∧
    (∀ m, Leads f n names m → ∃ idx' fuel', Follows idx names idx' ∧ indexNode p path f fuel' m = ok idx') := by
  induction names with
  | nil =>
    intro fuel n idx hN h
    constructor
    · intro idx' hf; cases hf; exact ⟨n, fuel, .here n, h⟩
    · intro m hl; cases hl; exact ⟨idx, fuel, .here idx, h⟩
  | cons k names ih =>
    intro fuel n idx hN h
    obtain ⟨fuel', ms, gs, d, g, -, -, -, hgs, hF, rfl⟩ := indexNode_inv h
    have hnd := keys_nodup hN hgs hF
    constructor
    · intro idx' hf
      cases hf with
      | down hg hf =>
        have hm := (mapGet_collect hnd k _).1 hg
        obtain ⟨e, he, hl, hx⟩ := forall₂_mem_right hF hm
        have hi : Inside f n k e.2 := ⟨gs, e.1, hgs, he, hl⟩
        obtain ⟨m, fu, h1, h2⟩ := (ih (named_inside hN hi) hx).1 idx' hf
        exact ⟨m, fu, .down hi h1, h2⟩
    · intro m hl
      cases hl with
      | @down _ b _ _ _ hi hl =>
        have hN' := named_inside hN hi
        obtain ⟨gs', name, hgs', hm, hk⟩ := hi
        rw [hgs] at hgs'
        cases hgs'
        obtain ⟨x, hx, hkx, hix⟩ := forall₂_mem_left hF hm
        have : x.1 = k := isLast_unique hkx hk
        obtain ⟨idx', fu, h1, h2⟩ := (ih hN' hix).2 m hl
        refine ⟨idx', fu, .down ((mapGet_collect hnd k x.2).2 ?_) h1, h2⟩
        rw [← this]; exact hx

theorem mem_opened {ms : List (Name × Option H5Dataset)} {d : Name} {h : H5Dataset} :
    (d, h) ∈ opened ms ↔ (d, some h) ∈ ms := by
  unfold opened
  rw [List.mem_filterMap]
  constructor
  · rintro ⟨⟨a, o⟩, hm, he⟩
    cases o with
    | none => simp at he
    | some x => simp only [Option.map_some, Option.some.injEq, Prod.mk.injEq] at he; rw [← he.1, ← he.2]; exact hm
  · exact fun hm => ⟨_, hm, rfl⟩

theorem opened_keys (ms : List (Name × Option H5Dataset)) :
    ((opened ms).map Prod.fst).Sublist (ms.map Prod.fst) := by
  induction ms with
  | nil => exact .slnil
  | cons e ms ih =>
    obtain ⟨a, o⟩ := e
    cases o with
    | none => exact .cons _ ih
    | some h => exact .cons_cons _ ih

theorem node_datasets {p : Profile} {path : Option Name} {f : H5Links} {fuel n : Nat} {idx : GroupIndex}
    (hN : Named f n) (h : indexNode p path f fuel n = ok idx) (d : Name) (x : Dataset) :
    mapGet idx.datasets d = some x ↔
      ∃ hd, Opens f n d hd ∧ HasStorage hd ∧ DatasetD.index p hd = ok x := by
  obtain ⟨fuel', ms, gs, ds, g, -, hms, hds, -, -, rfl⟩ := indexNode_inv h
  obtain ⟨hsub, hmem, -⟩ := indexDatasets_inv hds
  have hnd : (ds.map Prod.fst).Nodup :=
    (hsub.trans (opened_keys ms)).nodup ((hN n ⟨[], .here n⟩).1 ms hms)
  change mapGet (mapCollect ds) d = some x ↔ _
  rw [mapGet_collect hnd, hmem]
  constructor
  · rintro ⟨hd, h1, h2, h3⟩
    exact ⟨hd, ⟨ms, hms, mem_opened.1 h1⟩, h2, h3⟩
  · rintro ⟨hd, ⟨ms', hms', h1⟩, h2, h3⟩
    rw [hms] at hms'
    cases hms'
    exact ⟨hd, mem_opened.2 h1, h2, h3⟩

theorem indexLinks_inv {p : Profile} {path : Option Name} {f : H5Links} {root : Option Nat} {fuel : Nat}
    {idx : Index} (h : Index.indexLinks p path f root fuel = ok idx) :
    ∃ r, root = some r ∧ indexNode p path f fuel r = ok idx.root ∧ idx.path = path := by
  unfold Index.indexLinks at h
  cases root with
  | none => cases h
  | some r =>
    change (indexNode p path f fuel r >>= _) = _ at h
    cases hi : indexNode p path f fuel r with
    | ok g => rw [hi] at h; cases h; exact ⟨r, rfl, hi, rfl⟩
    | _ => rw [hi] at h; cases h

/-! ## C93 -/

/-- C93: after indexing has succeeded, a path resolves to a dataset exactly if going into the groups it names
leads to a group with an allocated dataset of that name that can be opened, and it resolves to its index. -/
theorem C93_find {p : Profile} {path : Option Name} {f : H5Links} {root fuel : Nat} {idx : Index}
    (hN : Named f root) (hi : Index.indexLinks p path f (some root) fuel = ok idx)
    {names : List Name} {d : Name} (k : Nat) (hp : ∀ n ∈ names ++ [d], Plain n ∧ n ≠ []) (x : Dataset) :
    idx.root.dataset (List.replicate k sep ++ joinPath (names ++ [d])) = some x ↔
      ∃ n h, Leads f root names n ∧ Opens f n d h ∧ HasStorage h ∧ DatasetD.index p h = ok x := by
  obtain ⟨r, hr, hi, -⟩ := indexLinks_inv hi
  cases hr
  rw [C36 k hp]
  obtain ⟨h1, h2⟩ := node_follows (names := names) hN hi
  have hsub : ∀ n, Leads f root names n → Named f n := by
    intro n hl
    rintro m ⟨names', hm⟩
    refine hN m ⟨names ++ names', ?_⟩
    exact leads_append hl hm
  constructor
  · rintro ⟨g', hf, hx⟩
    obtain ⟨m, fu, hl, hm⟩ := h1 g' hf
    obtain ⟨h, ho, ha, hd⟩ := (node_datasets (hsub m hl) hm d x).1 hx
    exact ⟨m, h, hl, ho, ha, hd⟩
  · rintro ⟨n, h, hl, ho, ha, hd⟩
    obtain ⟨g', fu, hf, hm⟩ := h2 n hl
    exact ⟨g', hf, (node_datasets (hsub n hl) hm d x).2 ⟨h, ho, ha, hd⟩⟩

/-- C93: if the members or the groups of some group in the file cannot be listed, or an allocated dataset that
can be opened cannot be indexed, there is no index. -/
theorem C93_fails {p : Profile} {path : Option Name} {f : H5Links} {root n : Nat} (hv : Visited f root n)
    (hbad : (f n).members = none ∨ (f n).groups = none ∨
      ∃ d h, Opens f n d h ∧ HasStorage h ∧ ∀ x, DatasetD.index p h ≠ ok x) (fuel : Nat) (idx : Index) :
    Index.indexLinks p path f (some root) fuel ≠ ok idx := by
  intro hi
  obtain ⟨r, hr, hi, -⟩ := indexLinks_inv hi
  cases hr
  obtain ⟨names, hl⟩ := hv
  obtain ⟨fu, idx', hm⟩ := indexed_of_leads hl hi
  obtain ⟨fuel', ms, gs, ds, g, -, hms, hds, hgs, -, -⟩ := indexNode_inv hm
  rcases hbad with h | h | ⟨d, h, ⟨ms', hms', ho⟩, ha, hno⟩
  · rw [hms] at h; cases h
  · rw [hgs] at h; cases h
  · rw [hms] at hms'
    cases hms'
    obtain ⟨x, hx⟩ := (indexDatasets_inv hds).2.2 d h (mem_opened.2 ho) ha
    exact hno x hx

/-- C93: a member that cannot be opened as a dataset is passed over: the outcome is that for the file without
it, whatever else is in the file. -/
theorem C93_unopened {p : Profile} {path : Option Name} {f f' : H5Links}
    (hg : ∀ n, (f' n).groups = (f n).groups)
    (hm : ∀ n, (f' n).members = (f n).members.map fun ms => ms.filter fun e => e.2.isSome)
    (root : Option Nat) (fuel : Nat) :
    Index.indexLinks p path f' root fuel = Index.indexLinks p path f root fuel := by
  have key : ∀ fuel n, indexNode p path f' fuel n = indexNode p path f fuel n := by
    intro fuel
    induction fuel with
    | zero => intro n; rfl
    | succ fuel ih =>
      intro n
      unfold indexNode
      rw [hg n, hm n]
      cases hms : (f n).members with
      | none => rfl
      | some ms =>
        have ho : opened (ms.filter fun e => e.2.isSome) = opened ms := by
          unfold opened
          rw [List.filterMap_filter]
          congr 1
          funext e
          cases e.2 <;> simp
        simp only [Option.map_some, answered, Outcome.ok_bind, ho, ih]
  unfold Index.indexLinks
  simp only [key]

theorem mapGet_foldl_other {α : Type} (l : List (Name × α)) (m : List (Name × α)) {k : Name}
    (h : ∀ e ∈ l, e.1 ≠ k) : mapGet (l.foldl (fun m e => mapInsert m e.1 e.2) m) k = mapGet m k := by
  induction l generalizing m with
  | nil => rfl
  | cons e l ih =>
    rw [List.foldl_cons, ih _ fun x hx => h x (by simp [hx]), mapGet_insert, if_neg (h e (by simp))]

/-- C93: a group is found under the last part of the name HDF5 gives for it; of several groups in a group with
the same last part only the last is found. -/
theorem C93_same_name {p : Profile} {path : Option Name} {f : H5Links} {fuel n b : Nat} {idx : GroupIndex}
    (h : indexNode p path f fuel n = ok idx) {l r : List (Name × Nat)} {name key : Name}
    (hgs : (f n).groups = some (l ++ (name, b) :: r)) (hkey : IsLast name key)
    (hr : ∀ e ∈ r, ¬ IsLast e.1 key) :
    ∃ fuel' x, mapGet idx.groups key = some x ∧ indexNode p path f fuel' b = ok x := by
  obtain ⟨fuel', ms, gs, d, g, -, -, -, hgs', hF, rfl⟩ := indexNode_inv h
  rw [hgs] at hgs'
  cases hgs'
  obtain ⟨g1, g2, hF1, hF2, rfl⟩ : ∃ g1 g2, List.Forall₂ (fun e x => IsLast e.1 x.1 ∧
      indexNode p path f fuel' e.2 = ok x.2) l g1 ∧ List.Forall₂ (fun e x => IsLast e.1 x.1 ∧
      indexNode p path f fuel' e.2 = ok x.2) ((name, b) :: r) g2 ∧ g = g1 ++ g2 := by
    clear hgs h
    induction l generalizing g with
    | nil => exact ⟨[], g, .nil, hF, rfl⟩
    | cons e l ih =>
      cases hF with
      | cons hx hF =>
        obtain ⟨g1, g2, h1, h2, rfl⟩ := ih _ hF
        exact ⟨_ :: g1, g2, .cons hx h1, h2, rfl⟩
  cases hF2 with
  | @cons _ x _ g2 hx hF2 =>
    refine ⟨fuel', x.2, ?_, hx.2⟩
    change mapGet (mapCollect (g1 ++ x :: g2)) key = some x.2
    unfold mapCollect
    rw [List.foldl_append, List.foldl_cons, mapGet_foldl_other, mapGet_insert,
      if_pos (isLast_unique hx.1 hkey)]
    intro y hy hyk
    obtain ⟨e, he, hl, -⟩ := forall₂_mem_right hF2 hy
    exact hr e he (hyk ▸ hl)

/-! ## C94 -/

/-- Group `b` is in group `a`. -/
def Below (f : H5Links) (b a : Nat) : Prop := ∃ key, Inside f a key b

theorem endless_iff {f : H5Links} {root : Nat} : Endless f root ↔ ¬ Acc (Below f) root := by
  rw [not_acc_iff_exists_descending_chain]
  rfl

theorem visited_below {f : H5Links} {a b n : Nat} (h : Below f b a) (hv : Visited f b n) : Visited f a n := by
  obtain ⟨key, hk⟩ := h
  obtain ⟨names, hn⟩ := hv
  exact ⟨key :: names, .down hk hn⟩

theorem below_of_mem {f : H5Links} {n : Nat} {gs : List (Name × Nat)} (hgs : (f n).groups = some gs)
    {e : Name × Nat} (he : e ∈ gs) : Below f e.2 n := by
  obtain ⟨key, hk⟩ := exists_isLast e.1
  exact ⟨key, gs, e.1, hgs, he, hk⟩

theorem noHang_lastPiece (s : Name) : NoHang (lastPiece s) := by unfold lastPiece; nohang

theorem node_ends {p : Profile} {path : Option Name} {f : H5Links} {n : Nat} (hacc : Acc (Below f) n) :
    (∀ m, Visited f n m → ∀ ms, (f m).members = some ms → NoHang (indexDatasets p (opened ms))) →
    ∃ F, NoHang (indexNode p path f F n) ∧
      ∀ k, F ≤ k → indexNode p path f k n = indexNode p path f F n := by
  induction hacc with
  | intro n _ ih =>
    intro hans
    -- one bound for all groups inside
    have hF : ∀ gs, (f n).groups = some gs → ∃ F, ∀ e ∈ gs, NoHang (indexNode p path f F e.2) ∧
        ∀ k, F ≤ k → indexNode p path f k e.2 = indexNode p path f F e.2 := by
      intro gs hgs
      have hb : ∀ e ∈ gs, ∃ F, NoHang (indexNode p path f F e.2) ∧
          ∀ k, F ≤ k → indexNode p path f k e.2 = indexNode p path f F e.2 := fun e he =>
        have hB := below_of_mem hgs he
        ih e.2 hB fun m hm => hans m (visited_below hB hm)
      clear hgs
      induction gs with
      | nil => exact ⟨0, by simp⟩
      | cons e gs ihl =>
        obtain ⟨F1, h1, h1'⟩ := hb e (by simp)
        obtain ⟨F2, h2⟩ := ihl fun x hx => hb x (by simp [hx])
        refine ⟨max F1 F2, fun x hx => ?_⟩
        rcases List.mem_cons.1 hx with rfl | hx
        · refine ⟨by rw [h1' _ (le_max_left _ _)]; exact h1, fun k hk => ?_⟩
          rw [h1' k (le_trans (le_max_left _ _) hk), h1' _ (le_max_left _ _)]
        · obtain ⟨h3, h4⟩ := h2 x hx
          refine ⟨by rw [h4 _ (le_max_right _ _)]; exact h3, fun k hk => ?_⟩
          rw [h4 k (le_trans (le_max_right _ _) hk), h4 _ (le_max_right _ _)]
    have hms := hans n ⟨[], .here n⟩
    cases hm : (f n).members with
    | none =>
      have : ∀ k, indexNode p path f (k + 1) n = err .io := by
        intro k; unfold indexNode; rw [hm]; rfl
      refine ⟨1, by rw [this 0]; exact noHang_err _, fun k hk => ?_⟩
      obtain ⟨k, rfl⟩ : ∃ j, k = j + 1 := ⟨k - 1, by omega⟩
      rw [this k, this 0]
    | some ms =>
      cases hg : (f n).groups with
      | none =>
        have : ∀ k, indexNode p path f (k + 1) n =
            (indexDatasets p (opened ms) >>= fun _ => err .io) := by
          intro k; unfold indexNode; rw [hm, hg]; rfl
        refine ⟨1, by rw [this 0]; exact (hms ms hm).bind fun _ => noHang_err _, fun k hk => ?_⟩
        obtain ⟨k, rfl⟩ : ∃ j, k = j + 1 := ⟨k - 1, by omega⟩
        rw [this k, this 0]
      | some gs =>
        obtain ⟨F, hF⟩ := hF gs hg
        refine ⟨F + 1, ?_, fun k hk => ?_⟩
        · unfold indexNode
          rw [hm, hg]
          simp only [answered, Outcome.ok_bind]
          refine (hms ms hm).bind fun d => NoHang.bind (noHang_mapM_mem fun e he => ?_) fun _ => noHang_ok _
          exact (hF e he).1.bind fun _ => (noHang_lastPiece _).bind fun _ => noHang_ok _
        · obtain ⟨k, rfl⟩ : ∃ j, k = j + 1 := ⟨k - 1, by omega⟩
          unfold indexNode
          rw [hm, hg]
          simp only [answered, Outcome.ok_bind]
          congr 1
          funext d
          congr 1
          refine mapM_congr_mem fun e he => ?_
          rw [(hF e he).2 k (by omega)]

theorem noHang_indexDatasets {p : Profile} {l : List (Name × H5Dataset)}
    (h : ∀ e ∈ l, NoHang (DatasetD.index p e.2)) : NoHang (indexDatasets p l) := by
  induction l with
  | nil => unfold indexDatasets; nohang
  | cons a l ih =>
    obtain ⟨m, d⟩ := a
    have h2 := h (m, d) (by simp)
    have h3 := ih fun e he => h e (by simp [he])
    unfold indexDatasets
    repeat' (first | exact h2 | nohang1)

/-- C94: if there is an end to going into the groups of the file, indexing comes to an end: with an index or a
failure, which does not depend on the bound on the depth once that is large enough. -/
theorem C94_ends {p : Profile} {path : Option Name} {f : H5Links} {root : Nat} (hE : ¬ Endless f root)
    (hans : ∀ n d h, Visited f root n → Opens f n d h → h.records ≠ diverge ∧ h.dtype ≠ diverge) :
    ∃ r, r ≠ diverge ∧ ∃ F, ∀ fuel, F ≤ fuel → Index.indexLinks p path f (some root) fuel = r := by
  rw [endless_iff, not_not] at hE
  obtain ⟨F, h1, h2⟩ := node_ends (p := p) (path := path) hE fun m hm ms hms =>
    noHang_indexDatasets fun e he => by
      obtain ⟨a, b⟩ := hans m e.1 e.2 hm ⟨ms, hms, mem_opened.1 he⟩
      exact (hang_index p e.2 a b []).1
  refine ⟨Index.indexLinks p path f (some root) F, ?_, F, fun k hk => ?_⟩
  · unfold Index.indexLinks
    simp only [answered, Outcome.ok_bind]
    exact h1.bind fun _ => noHang_ok _
  · unfold Index.indexLinks
    simp only [answered, Outcome.ok_bind, h2 k hk]

theorem node_endless {p : Profile} {path : Option Name} {f : H5Links} {fuel n : Nat} {idx : GroupIndex}
    (h : indexNode p path f fuel n = ok idx) : Acc (Below f) n := by
  induction fuel generalizing n idx with
  | zero => cases h
  | succ fuel ih =>
    refine ⟨n, ?_⟩
    rintro b ⟨key, gs, name, hgs, hm, -⟩
    obtain ⟨fuel', ms, gs', d, g, hfuel, -, -, hgs', hF, -⟩ := indexNode_inv h
    rw [hgs] at hgs'
    cases hgs'
    cases hfuel
    obtain ⟨x, -, -, hx⟩ := forall₂_mem_left hF hm
    exact ih hx

theorem indexDatasets_ok {p : Profile} {l : List (Name × H5Dataset)}
    (h : ∀ e ∈ l, HasStorage e.2 → ∃ x, DatasetD.index p e.2 = ok x) : ∃ r, indexDatasets p l = ok r := by
  induction l with
  | nil => exact ⟨[], rfl⟩
  | cons a l ih =>
    obtain ⟨m, d⟩ := a
    obtain ⟨r, hr⟩ := ih fun e he => h e (by simp [he])
    unfold indexDatasets
    split
    · rename_i ha
      obtain ⟨x, hx⟩ := h (m, d) (by simp) (allocated_iff.1 ha)
      exact ⟨(m, x) :: r, by rw [hx, hr]; rfl⟩
    · exact ⟨r, hr⟩

theorem node_okOrHang {p : Profile} {path : Option Name} {f : H5Links} {fuel n : Nat}
    (hI : Indexable p f n) : OkOrHang (indexNode p path f fuel n) := by
  induction fuel generalizing n with
  | zero => exact .inr rfl
  | succ fuel ih =>
    obtain ⟨hm, hg, hd⟩ := hI n ⟨[], .here n⟩
    cases hms : (f n).members with
    | none => exact absurd hms hm
    | some ms =>
      cases hgs : (f n).groups with
      | none => exact absurd hgs hg
      | some gs =>
        obtain ⟨r, hr⟩ := indexDatasets_ok (p := p) (l := opened ms) fun e he ha =>
          hd e.1 e.2 ⟨ms, hms, mem_opened.1 he⟩ ha
        unfold indexNode
        rw [hms, hgs]
        simp only [answered, Outcome.ok_bind, hr]
        refine OkOrHang.bind (okOrHang_mapM_mem fun e he => ?_) fun _ _ => okOrHang_ok _
        have hB := below_of_mem hgs he
        refine (ih fun m hv => hI m (visited_below hB hv)).bind fun _ _ => ?_
        obtain ⟨key, hk⟩ := exists_isLast e.1
        rw [lastPiece_of_isLast hk]
        exact okOrHang_ok _

/-- C94: if there is no end to going into the groups, indexing never succeeds, however deep it goes; and if
nothing else stops it, it does not end. -/
theorem C94_endless {p : Profile} {path : Option Name} {f : H5Links} {root : Nat} (hE : Endless f root)
    (fuel : Nat) :
    (∀ idx, Index.indexLinks p path f (some root) fuel ≠ ok idx) ∧
    (Indexable p f root → Index.indexLinks p path f (some root) fuel = diverge) := by
  rw [endless_iff] at hE
  have hno : ∀ idx, indexNode p path f fuel root ≠ ok idx := fun idx h => hE (node_endless h)
  constructor
  · intro idx h
    obtain ⟨r, hr, hi, -⟩ := indexLinks_inv h
    cases hr
    exact hno _ hi
  · intro hI
    rcases node_okOrHang (path := path) (fuel := fuel) hI with ⟨a, ha⟩ | hd
    · exact absurd ha (hno a)
    · unfold Index.indexLinks
      simp only [answered, Outcome.ok_bind, hd]
      rfl

theorem acc_irrefl {α : Type} {r : α → α → Prop} {a : α} (h : Acc r a) : ¬ r a a := by
  induction h with
  | intro a _ ih => exact fun hr => ih a hr hr

/-- C94: a group that contains itself, directly or through other groups, is without end. -/
theorem C94_cycle {f : H5Links} {root n : Nat} {key : Name} {keys : List Name} (hv : Visited f root n)
    (hc : Leads f n (key :: keys) n) : Endless f root := by
  rw [endless_iff]
  intro hacc
  obtain ⟨names, hl⟩ := hv
  have hn : Acc (Below f) n := by
    induction hl with
    | here => exact hacc
    | down hi _ ih => exact ih hc (hacc.inv ⟨_, hi⟩)
  have key : ∀ {a b : Nat} {ns : List Name}, Leads f a ns b → ns ≠ [] →
      Relation.TransGen (Below f) b a := by
    intro a b ns h
    induction h with
    | here => exact fun h => absurd rfl h
    | @down a b c k ks hi hl ih =>
      intro _
      cases ks with
      | nil => cases hl; exact .single ⟨k, hi⟩
      | cons k' ks => exact .tail (ih (by simp)) ⟨k, hi⟩
  exact acc_irrefl hn.transGen (key hc (by simp))

/-- C93: and otherwise indexing succeeds: if there is an end to going into the groups, everything can be listed,
and the allocated datasets that can be opened can be indexed. -/
theorem C93_succeeds {p : Profile} {path : Option Name} {f : H5Links} {root : Nat} (hE : ¬ Endless f root)
    (hI : Indexable p f root) :
    ∃ idx F, ∀ fuel, F ≤ fuel → Index.indexLinks p path f (some root) fuel = ok idx := by
  rw [endless_iff, not_not] at hE
  obtain ⟨F, h1, h2⟩ := node_ends (p := p) (path := path) hE fun m hm ms hms => by
    obtain ⟨r, hr⟩ := indexDatasets_ok (p := p) (l := opened ms) fun e he ha =>
      (hI m hm).2.2 e.1 e.2 ⟨ms, hms, mem_opened.1 he⟩ ha
    rw [hr]; exact noHang_ok _
  rcases node_okOrHang (path := path) (fuel := F) hI with ⟨a, ha⟩ | hd
  · refine ⟨⟨path, a⟩, F, fun k hk => ?_⟩
    unfold Index.indexLinks
    simp only [answered, Outcome.ok_bind, h2 k hk, ha]
  · exact absurd hd h1

/-! ## Trees -/

theorem indexGroups_mapM {p : Profile} {path : Option Name} {full : Name} (gs : List (Name × H5Group)) :
    indexGroups p path full gs = gs.mapM fun e => (do
      let x ← indexGroup p path (full ++ sep :: e.1) e.2
      let key ← lastPiece (full ++ sep :: e.1)
      ok (key, x)) := by
  induction gs with
  | nil => unfold indexGroups; rfl
  | cons e gs ih =>
    obtain ⟨link, g⟩ := e
    rw [List.mapM_cons]
    unfold indexGroups
    rw [ih]
    simp only [bind_assoc, slash_eq]
    rfl

/-- C93: on a tree of groups all of which can be listed, indexing is what it is in the other properties. -/
theorem C93_tree {p : Profile} {path : Option Name} {f : H5Links} {n : Nat} {full : Name} {g : H5Group}
    (h : Shows f n full g) :
    ∃ F, ∀ fuel, F ≤ fuel → indexNode p path f fuel n = indexGroup p path full g := by
  induction h with
  | @mk n full ms l gs hms hl hn hs ih =>
    have hlen : l.length = gs.length := by simpa using congrArg List.length hn
    have hF : ∃ F, ∀ i (h1 : i < l.length) (h2 : i < gs.length), ∀ fuel, F ≤ fuel →
        indexNode p path f fuel l[i].2 = indexGroup p path (full ++ sep :: gs[i].1) gs[i].2 := by
      have : ∀ j, ∃ F, ∀ i (h1 : i < l.length) (h2 : i < gs.length), i < j → ∀ fuel, F ≤ fuel →
          indexNode p path f fuel l[i].2 = indexGroup p path (full ++ sep :: gs[i].1) gs[i].2 := by
        intro j
        induction j with
        | zero => exact ⟨0, fun i _ _ hi => absurd hi (by omega)⟩
        | succ j ihj =>
          obtain ⟨F, hF⟩ := ihj
          by_cases hj : j < l.length
          · obtain ⟨F', hF'⟩ := ih j hj (hlen ▸ hj)
            refine ⟨max F F', fun i h1 h2 hi fuel hf => ?_⟩
            rcases Nat.lt_succ_iff_lt_or_eq.1 hi with hi | rfl
            · exact hF i h1 h2 hi fuel (le_trans (le_max_left _ _) hf)
            · exact hF' fuel (le_trans (le_max_right _ _) hf)
          · refine ⟨F, fun i h1 h2 hi fuel hf => hF i h1 h2 (by omega) fuel hf⟩
      obtain ⟨F, hF⟩ := this l.length
      exact ⟨F, fun i h1 h2 => hF i h1 h2 h1⟩
    obtain ⟨F, hF⟩ := hF
    refine ⟨F + 1, fun fuel hf => ?_⟩
    obtain ⟨k, rfl⟩ : ∃ j, fuel = j + 1 := ⟨fuel - 1, by omega⟩
    unfold indexNode indexGroup
    rw [hms, hl]
    simp only [answered, Outcome.ok_bind]
    congr 1
    funext d
    rw [indexGroups_mapM]
    congr 1
    clear ih hl hs
    induction l generalizing gs with
    | nil =>
      cases gs with
      | nil => rfl
      | cons _ _ => simp at hlen
    | cons a l ihl =>
      cases gs with
      | nil => simp at hlen
      | cons b gs =>
        rw [List.mapM_cons, List.mapM_cons]
        have h0 := hF 0 (by simp) (by simp) k (by omega)
        simp only [List.getElem_cons_zero] at h0
        simp only [List.map_cons, List.cons.injEq] at hn
        rw [h0, hn.1, ihl hn.2 (by simpa using hlen) fun i h1 h2 => by
          have := hF (i + 1) (by simpa using h1) (by simpa using h2)
          simpa using this]

/-! ## Concrete files -/

/-- A file with a dataset at `/a/x`, one at `/y` and a member `/x` that cannot be opened. -/
def demoLinks : H5Links
  | 0 => ⟨some [([120], none), ([121], some demoH5)], some [([47, 97], 1)]⟩
  | 1 => ⟨some [([120], some demoH5)], some []⟩
  | _ => ⟨some [], some []⟩

theorem demo_inside {a b : Nat} {key : Name} (h : Inside demoLinks a key b) :
    a = 0 ∧ b = 1 ∧ key = [97] := by
  obtain ⟨gs, name, hgs, hm, hk⟩ := h
  match a, hgs with
  | 0, hgs =>
    simp only [demoLinks, Option.some.injEq] at hgs
    subst hgs
    simp only [List.mem_singleton, Prod.mk.injEq] at hm
    refine ⟨rfl, hm.2, isLast_unique hk ?_⟩
    rw [hm.1]
    exact ⟨by simp only [Plain]; decide, .inr ⟨[], rfl⟩⟩
  | 1, hgs => simp only [demoLinks, Option.some.injEq] at hgs; subst hgs; simp at hm
  | _ + 2, hgs => simp only [demoLinks, Option.some.injEq] at hgs; subst hgs; simp at hm

theorem demo_ends : ¬ Endless demoLinks 0 := by
  rintro ⟨chain, h0, hc⟩
  obtain ⟨k0, h1⟩ := hc 0
  obtain ⟨k1, h2⟩ := hc 1
  have e1 := (demo_inside h1).2.1
  have e2 := (demo_inside h2).1
  rw [Nat.zero_add] at e1
  rw [e1] at e2
  exact absurd e2 (by decide)

theorem demo_named : Named demoLinks 0 := by
  intro n _
  match n with
  | 0 => exact ⟨fun ms h => by cases h; decide, fun gs h => by cases h; simp⟩
  | 1 => exact ⟨fun ms h => by cases h; decide, fun gs h => by cases h; simp⟩
  | _ + 2 => exact ⟨fun ms h => by cases h; decide, fun gs h => by cases h; simp⟩

theorem demoH5_indexed (p : Profile) : ∃ x, DatasetD.index p demoH5 = ok x := by
  cases p
  · exact ⟨_, (C34_complete (p := .debug) (h := demoH5) rfl rfl rfl rfl (by decide) (by decide)
      ⟨by decide, by decide, by decide, by decide⟩ rfl (by simp [demoH5]) rfl rfl (by decide)).choose_spec.1⟩
  · exact ⟨_, (C34_complete (p := .release) (h := demoH5) rfl rfl rfl rfl (by decide) (by decide)
      ⟨by decide, by decide, by decide, by decide⟩ rfl (by simp [demoH5]) rfl rfl (by decide)).choose_spec.1⟩

theorem demo_opens {n : Nat} {d : Name} {h : H5Dataset} (ho : Opens demoLinks n d h) : h = demoH5 := by
  obtain ⟨ms, hms, hm⟩ := ho
  match n, hms with
  | 0, hms => cases hms; simp at hm; exact hm.2
  | 1, hms => cases hms; simp at hm; exact hm.2
  | _ + 2, hms => cases hms; simp at hm

theorem demo_indexable (p : Profile) : Indexable p demoLinks 0 := by
  intro n _
  refine ⟨?_, ?_, fun d h ho _ => by rw [demo_opens ho]; exact demoH5_indexed p⟩
  · match n with
    | 0 => simp [demoLinks]
    | 1 => simp [demoLinks]
    | _ + 2 => simp [demoLinks]
  · match n with
    | 0 => simp [demoLinks]
    | 1 => simp [demoLinks]
    | _ + 2 => simp [demoLinks]

/-- The hypotheses of C93_succeeds and C93_find are met: the demo file is indexed, and `/a/x` is found in it. -/
theorem demo_found (p : Profile) (path : Option Name) : ∃ idx F, ∀ fuel, F ≤ fuel →
    Index.indexLinks p path demoLinks (some 0) fuel = ok idx ∧
    ∃ x, idx.root.dataset [97, 47, 120] = some x ∧ DatasetD.index p demoH5 = ok x := by
  obtain ⟨idx, F, h⟩ := C93_succeeds (p := p) (path := path) demo_ends (demo_indexable p)
  refine ⟨idx, F, fun fuel hf => ⟨h fuel hf, ?_⟩⟩
  obtain ⟨x, hx⟩ := demoH5_indexed p
  refine ⟨x, ?_, hx⟩
  refine (C93_find demo_named (h F le_rfl) (names := [[97]]) (d := [120]) 0 ?_ x).2 ?_
  · simp only [Plain]; decide
  · refine ⟨1, demoH5, .down ⟨_, _, rfl, List.mem_singleton.2 rfl, ?_⟩ (.here 1),
      ⟨_, rfl, by simp⟩, .inl rfl, hx⟩
    exact ⟨by simp only [Plain]; decide, .inr ⟨[], rfl⟩⟩

/-- Not C93 as one would like it: a member of the file that cannot be opened, a damaged dataset for example, is
left out of the index without an error. -/
theorem not_C93 (p : Profile) (path : Option Name) : ∃ idx F, ∀ fuel, F ≤ fuel →
    Index.indexLinks p path demoLinks (some 0) fuel = ok idx ∧ idx.root.dataset [120] = none := by
  obtain ⟨idx, F, h⟩ := C93_succeeds (p := p) (path := path) demo_ends (demo_indexable p)
  refine ⟨idx, F, fun fuel hf => ⟨h fuel hf, ?_⟩⟩
  cases hd : idx.root.dataset [120] with
  | none => rfl
  | some x =>
    obtain ⟨n, hh, hl, ⟨ms, hms, hm⟩, -, -⟩ := (C93_find demo_named (h F le_rfl) (names := [])
      (d := [120]) 0 (by simp only [Plain]; decide) x).1 hd
    cases hl
    cases hms
    simp at hm

/-- A file in which the group `/a` has a link `b` to the root. -/
def loopLinks : H5Links
  | 0 => ⟨some [([120], some demoH5)], some [([47, 97], 1)]⟩
  | _ => ⟨some [], some [([47, 97, 47, 98], 0)]⟩

theorem loop_endless : Endless loopLinks 0 := by
  have h0 : Inside loopLinks 0 [97] 1 := ⟨_, _, rfl, List.mem_singleton.2 rfl,
    ⟨by simp only [Plain]; decide, .inr ⟨[], rfl⟩⟩⟩
  have h1 : Inside loopLinks 1 [98] 0 := ⟨_, _, rfl, List.mem_singleton.2 rfl,
    ⟨by simp only [Plain]; decide, .inr ⟨[47, 97], rfl⟩⟩⟩
  exact C94_cycle ⟨[], .here 0⟩ (.down h0 (.down h1 (.here 0)))

/-- Not C94 as one would like it: indexing a file in which a group has a link to the group it is in does not end. -/
theorem not_C94 (p : Profile) (path : Option Name) (fuel : Nat) :
    Index.indexLinks p path loopLinks (some 0) fuel = diverge := by
  refine (C94_endless loop_endless fuel).2 fun n _ => ?_
  match n with
  | 0 =>
    refine ⟨by simp [loopLinks], by simp [loopLinks], ?_⟩
    rintro d h ⟨ms, hms, hm⟩ -
    cases hms
    simp only [List.mem_singleton, Prod.mk.injEq, Option.some.injEq] at hm
    rw [hm.2]; exact demoH5_indexed p
  | _ + 1 =>
    refine ⟨by simp [loopLinks], by simp [loopLinks], ?_⟩
    rintro d h ⟨ms, hms, hm⟩ -
    cases hms
    simp at hm

/-- The demo file shows a tree, so C93_tree applies to it. -/
example : Shows demoLinks 0 [] (.mk [([121], demoH5)] [([97], .mk [([120], demoH5)] [])]) := by
  refine .mk (ms := [([120], none), ([121], some demoH5)]) (l := [([47, 97], 1)]) rfl rfl rfl ?_
  intro i h1 h2
  simp only [List.length_singleton, Nat.lt_one_iff] at h1
  subst h1
  exact .mk (ms := [([120], some demoH5)]) (l := []) rfl rfl rfl fun i h1 _ => absurd h1 (by simp)

/-- Two groups under one name: the second is the one that is found. -/
example {p : Profile} {path : Option Name} {f : H5Links} {fuel : Nat} {idx : GroupIndex}
    (hf : f 0 = ⟨some [], some [([47, 97], 1), ([47, 97], 2)]⟩) (h : indexNode p path f fuel 0 = ok idx) :
    ∃ fuel' x, mapGet idx.groups [97] = some x ∧ indexNode p path f fuel' 2 = ok x :=
  C93_same_name h (l := [([47, 97], 1)]) (r := []) (by rw [hf]; rfl)
    ⟨by simp only [Plain]; decide, .inr ⟨[], rfl⟩⟩ (by simp)

end Hidefix.Props
