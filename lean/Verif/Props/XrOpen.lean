import Verif.Model.XrOpen
import Verif.Spec.XrOpen
import Verif.Props.Links
import Verif.Props.Xarray
import Verif.Props.Tools
import Verif.Proofs.Tree

/-!
# Property C95: what the xarray backend shows of a file
-/

namespace Hidefix.Props
open Hidefix Hidefix.Spec Hidefix.Proofs Outcome

theorem xrOpen_inv {p : Profile} {path : Name} {f : H5Links} {root : Option Nat} {nc : NcAnswers}
    {group : Option Name} {fuel : Nat} {idx : Index} {r : List (Name × Option PyScalar)} :
    xrOpen p path f root nc group fuel = ok (idx, r) ↔
    Index.indexLinks p (some path) f root fuel = ok idx ∧ ∃ vars, nc group = some vars ∧
      xrGetVariables idx.root group vars = ok r := by
  unfold xrOpen
  constructor
  · intro h
    obtain ⟨idx', h1, h⟩ := bind_eq_ok.1 h
    obtain ⟨vars, h2, h⟩ := bind_eq_ok.1 h
    obtain ⟨r', h3, h⟩ := bind_eq_ok.1 h
    cases h
    refine ⟨h1, vars, ?_, h3⟩
    cases hn : nc group with
    | none => rw [hn] at h2; cases h2
    | some v => rw [hn] at h2; cases h2; rfl
  · rintro ⟨h1, vars, h2, h3⟩
    simp only [h1, h2, answered, h3, Outcome.ok_bind]

theorem follows_det {g a b : GroupIndex} {names : List Name} (ha : Follows g names a) (hb : Follows g names b) :
    a = b := by
  induction ha with
  | here => cases hb; rfl
  | down hget _ ih =>
    cases hb with
    | down hget' hb => rw [hget] at hget'; cases hget'; exact ih hb

/-- The names that the index lists for a group are the ones of the group in the file. -/
theorem listed {p : Profile} {path : Option Name} {f : H5Links} {root fuel : Nat} {idx : Index}
    (hN : Named f root) (hi : Index.indexLinks p path f (some root) fuel = ok idx) {group : Option Name}
    {names : List Name} (hg : GroupArg group names) :
    (pyDatasets idx.root group).Nodup ∧ ∀ k, k ∈ pyDatasets idx.root group ↔ HasVar f root names k := by
  obtain ⟨r, hr, hi, -⟩ := indexLinks_inv hi
  cases hr
  obtain ⟨h1, h2⟩ := node_follows (names := names) hN hi
  have hsub : ∀ n, Leads f root names n → Named f n := by
    rintro n hl m ⟨names', hm⟩
    exact hN m ⟨names ++ names', leads_append hl hm⟩
  have here : ∀ {m fu : Nat} {g : GroupIndex}, Named f m → indexNode p path f fu m = ok g →
      (g.datasets.map Prod.fst).Nodup ∧
      ∀ k, k ∈ g.datasets.map Prod.fst ↔ ∃ h, Opens f m k h ∧ HasStorage h := by
    intro m fu g hNm hm
    constructor
    · obtain ⟨fuel', ms, gs, ds, g', -, -, -, -, -, rfl⟩ := indexNode_inv hm
      exact mapCollect_keys ds
    · intro k
      constructor
      · intro hk
        cases hx : mapGet g.datasets k with
        | none => exact absurd hk (mapGet_none_iff.1 hx)
        | some x =>
          obtain ⟨h, ho, ha, -⟩ := (node_datasets hNm hm k x).1 hx
          exact ⟨h, ho, ha⟩
      · rintro ⟨h, ho, ha⟩
        by_contra hk
        have hx := mapGet_none_iff.2 hk
        obtain ⟨fuel', ms, gs, ds, g', -, hms, hds, -, -, rfl⟩ := indexNode_inv hm
        obtain ⟨ms', hms', hmem⟩ := ho
        rw [hms] at hms'
        cases hms'
        obtain ⟨x, hd⟩ := (indexDatasets_inv hds).2.2 k h (mem_opened.2 hmem) ha
        have := (node_datasets hNm hm k x).2 ⟨h, ⟨ms, hms, hmem⟩, ha, hd⟩
        rw [hx] at this
        cases this
  have there : ∀ {g : GroupIndex}, Follows idx.root names g → ∀ k, k ∈ g.datasets.map Prod.fst ↔
      HasVar f root names k := by
    intro g hf k
    obtain ⟨m, fu, hl, hm⟩ := h1 g hf
    rw [(here (hsub m hl) hm).2 k]
    constructor
    · rintro ⟨h, ho, ha⟩; exact ⟨m, h, hl, ho, ha⟩
    · rintro ⟨n, h, hl', ho, ha⟩
      obtain ⟨g', fu', hf', hm'⟩ := h2 n hl'
      rw [follows_det hf' hf] at hm'
      exact ((here (hsub m hl) hm).2 k).1 (((here (hsub n hl') hm').2 k).2 ⟨h, ho, ha⟩)
  cases hg with
  | root =>
    exact ⟨(here hN hi).1, there (.here _)⟩
  | path j k hne hp =>
    simp only [pyDatasets]
    cases hgr : idx.root.group (List.replicate j sep ++ joinPath names ++ List.replicate k sep) with
    | some g =>
      have hf := (C37 j k hne hp).1 hgr
      obtain ⟨m, fu, hl, hm⟩ := h1 g hf
      exact ⟨(here (hsub m hl) hm).1, there hf⟩
    | none =>
      refine ⟨by simp, fun d => ⟨fun h => by simp at h, ?_⟩⟩
      rintro ⟨n, h, hl, -, -⟩
      obtain ⟨g', fu, hf, -⟩ := h2 n hl
      rw [(C37 j k hne hp).2 hf] at hgr
      cases hgr

/-! ## C95 -/

/-- C95: the variables of a file that has been opened are the allocated datasets of the group that can be opened, each
once, with the fill value its attributes give; each of them is found when it is read, as the index of that dataset. -/
theorem C95_shown {p : Profile} {path : Name} {f : H5Links} {root fuel : Nat} {nc : NcAnswers}
    {group : Option Name} {names : List Name} {idx : Index} {r : List (Name × Option PyScalar)}
    {vars : Name → Option NcVar} (hN : Named f root) (hg : GroupArg group names) (hnc : nc group = some vars)
    (hv : ∀ k v, vars k = some v → IsNcVar v)
    (h : xrOpen p path f (some root) nc group fuel = ok (idx, r)) :
    (r.map Prod.fst).Nodup ∧
    (∀ k, k ∈ r.map Prod.fst ↔ HasVar f root names k) ∧
    (∀ k fl, (k, fl) ∈ r → ∃ v, vars k = some v ∧ FillOf v fl) ∧
    (∀ k n h5, Plain k → k ≠ [] → Leads f root names n → Opens f n k h5 → HasStorage h5 →
      ∃ hd x, pyDataset idx.root k group = some hd ∧ pyHandle idx.root hd = ok x ∧ DatasetD.index p h5 = ok x) := by
  obtain ⟨hi, vars', hnc', hr⟩ := xrOpen_inv.1 h
  rw [hnc] at hnc'
  cases hnc'
  obtain ⟨hnd, hmem⟩ := listed hN hi hg
  have hF := (C62_partial idx.root group vars hv r).1 hr
  have hkeys : r.map Prod.fst = pyDatasets idx.root group := by
    have key : ∀ {l : List Name} {r : List (Name × Option PyScalar)},
        List.Forall₂ (fun k e => e.1 = k ∧ ∃ v, vars k = some v ∧ FillOf v e.2) l r → r.map Prod.fst = l := by
      intro l r hF
      induction hF with
      | nil => rfl
      | cons h _ ih => rw [List.map_cons, ih, h.1]
    exact key hF
  refine ⟨hkeys ▸ hnd, fun k => by rw [hkeys]; exact hmem k, fun k fl hm => ?_,
    fun k n h5 hpl hne hl ho ha => ?_⟩
  · obtain ⟨k', -, h1, v, h2, h3⟩ := forall₂_mem_right hF hm
    cases h1
    exact ⟨v, h2, h3⟩
  · obtain ⟨hd, h1⟩ := (C55_names hpl hne).1 ((hmem k).2 ⟨n, h5, hl, ho, ha⟩)
    obtain ⟨x, h2, h3⟩ := (C55 idx.root k group).1 hd h1
    obtain ⟨g', hf, hx⟩ : ∃ g', Follows idx.root names g' ∧ g'.dataset k = some x := by
      cases hg with
      | root => exact ⟨_, .here _, h3⟩
      | path i j hne' hp =>
        obtain ⟨g', hgr, hx⟩ := h3
        exact ⟨g', (C37 i j hne' hp).1 hgr, hx⟩
    have hget : mapGet g'.datasets k = some x := by
      have := C36 (g := g') (path := []) (d := k) 0 (by simpa using ⟨hpl, hne⟩) x
      simp only [List.replicate_zero, List.nil_append, joinPath] at this
      obtain ⟨g'', hf, h⟩ := this.1 hx
      cases hf
      exact h
    obtain ⟨r', hr', hi', -⟩ := indexLinks_inv hi
    cases hr'
    obtain ⟨g'', fu, hf', hm⟩ := (node_follows (names := names) hN hi').2 n hl
    rw [follows_det hf' hf] at hm
    have hNn : Named f n := by
      rintro m' ⟨names', hm'⟩
      exact hN m' ⟨names ++ names', leads_append hl hm'⟩
    obtain ⟨h5', ho', -, hd5⟩ := (node_datasets hNn hm k x).1 hget
    have : h5' = h5 := by
      obtain ⟨ms, hms, hm1⟩ := ho
      obtain ⟨ms', hms', hm2⟩ := ho'
      rw [hms] at hms'
      cases hms'
      have := List.inj_on_of_nodup_map ((hN n ⟨names, hl⟩).1 ms hms) hm2 hm1 rfl
      simpa using this
    exact ⟨hd, x, h1, h2, this ▸ hd5⟩

/-- C95: exactly when a file opens. -/
theorem C95_opens {p : Profile} {path : Name} {f : H5Links} {root : Nat} {nc : NcAnswers}
    {group : Option Name} {names : List Name} (hN : Named f root) (hg : GroupArg group names)
    (hv : ∀ vars k v, nc group = some vars → vars k = some v → IsNcVar v) :
    (∃ fuel res, xrOpen p path f (some root) nc group fuel = ok res) ↔
      ¬ Endless f root ∧ Indexable p f root ∧
      ∃ vars, nc group = some vars ∧ ∀ k, HasVar f root names k → ∃ v fl, vars k = some v ∧ FillOf v fl := by
  constructor
  · rintro ⟨fuel, ⟨idx, r⟩, h⟩
    obtain ⟨hi, vars, hnc, hr⟩ := xrOpen_inv.1 h
    refine ⟨fun hE => (C94_endless hE fuel).1 idx hi, fun n hn => ?_, vars, hnc, fun k hk => ?_⟩
    · have hb := fun hbad => C93_fails (p := p) (path := some path) hn hbad fuel idx hi
      refine ⟨fun h => hb (.inl h), fun h => hb (.inr (.inl h)), fun d h5 ho ha => ?_⟩
      by_contra hno
      exact hb (.inr (.inr ⟨d, h5, ho, ha, fun x hx => hno ⟨x, hx⟩⟩))
    · obtain ⟨-, h2, h3, -⟩ := C95_shown hN hg hnc (fun k v => hv vars k v hnc) h
      obtain ⟨⟨k', fl⟩, he, rfl⟩ := List.mem_map.1 ((h2 k).2 hk)
      obtain ⟨v, hv1, hv2⟩ := h3 k' fl he
      exact ⟨v, fl, hv1, hv2⟩
  · rintro ⟨hE, hI, vars, hnc, hall⟩
    obtain ⟨idx, F, hi⟩ := C93_succeeds (p := p) (path := some path) hE hI
    have hi := hi F le_rfl
    obtain ⟨-, hmem⟩ := listed hN hi hg
    have : ∃ r, List.Forall₂ (fun k (e : Name × Option PyScalar) => e.1 = k ∧ ∃ v, vars k = some v ∧ FillOf v e.2)
        (pyDatasets idx.root group) r := by
      have key : ∀ l : List Name, (∀ k ∈ l, ∃ v fl, vars k = some v ∧ FillOf v fl) → ∃ r,
          List.Forall₂ (fun k (e : Name × Option PyScalar) => e.1 = k ∧ ∃ v, vars k = some v ∧ FillOf v e.2) l r := by
        intro l hl
        induction l with
        | nil => exact ⟨[], .nil⟩
        | cons k l ih =>
          obtain ⟨r, hr⟩ := ih fun k' hk' => hl k' (by simp [hk'])
          obtain ⟨v, fl, h1, h2⟩ := hl k (by simp)
          exact ⟨(k, fl) :: r, .cons ⟨rfl, v, h1, h2⟩ hr⟩
      exact key _ fun k hk => hall k ((hmem k).1 hk)
    obtain ⟨r, hr⟩ := this
    exact ⟨F, (idx, r), xrOpen_inv.2 ⟨hi, vars, hnc,
      (C62_partial idx.root group vars (fun k v => hv vars k v hnc) r).2 hr⟩⟩

/-- C95: one dataset anywhere in the file that cannot be indexed keeps every group from being opened. -/
theorem C95_elsewhere {p : Profile} {f : H5Links} {root n : Nat} (hn : Visited f root n) {d : Name} {h5 : H5Dataset}
    (ho : Opens f n d h5) (ha : HasStorage h5) (hno : ∀ x, DatasetD.index p h5 ≠ ok x)
    (path : Name) (nc : NcAnswers) (group : Option Name) (fuel : Nat) (res : Index × List (Name × Option PyScalar)) :
    xrOpen p path f (some root) nc group fuel ≠ ok res := by
  intro h
  exact C93_fails hn (.inr (.inr ⟨d, h5, ho, ha, hno⟩)) fuel res.1 (xrOpen_inv.1 h).1

/-- Not C95 as one would like it: with `group="/"` (or more slashes), which is the root for netCDF4, the file opens,
whatever is in it, without a single variable and without an error. -/
theorem not_C95_root {p : Profile} {path : Name} {f : H5Links} {root : Nat} {nc : NcAnswers} (k : Nat)
    {vars : Name → Option NcVar} (hnc : nc (some (List.replicate k sep)) = some vars) (hE : ¬ Endless f root)
    (hI : Indexable p f root) (hN : Named f root) (hno : ∀ n, ¬ Inside f root [] n) :
    ∃ idx F, ∀ fuel, F ≤ fuel →
      xrOpen p path f (some root) nc (some (List.replicate k sep)) fuel = ok (idx, []) := by
  obtain ⟨idx, F, hi⟩ := C93_succeeds (p := p) (path := some path) hE hI
  refine ⟨idx, F, fun fuel hf => xrOpen_inv.2 ⟨hi fuel hf, vars, hnc, ?_⟩⟩
  have : idx.root.group (List.replicate k sep) = none := by
    obtain ⟨r', hr', hi', -⟩ := indexLinks_inv (hi F le_rfl)
    cases hr'
    rw [not_C37]
    cases hg : mapGet idx.root.groups [] with
    | none => rfl
    | some g =>
      obtain ⟨m, fu, hl, -⟩ := (node_follows (names := [[]]) hN hi').1 g (.down hg (.here g))
      cases hl with
      | down hin _ => exact absurd hin (hno _)
  simp only [xrGetVariables, pyDatasets, this, xrVariables]

/-! ## Examples -/

/-- What netCDF4 says about the demo file: the variables `x` and `y` in every group, with a fill value. -/
def demoNc : NcAnswers := fun _ => some fun k =>
  if k = [120] ∨ k = [121] then some ⟨some ⟨some 7, none⟩, none⟩ else none

theorem demoNc_ok (group : Option Name) : ∀ vars k v, demoNc group = some vars → vars k = some v → IsNcVar v := by
  intro vars k v h hk
  cases h
  simp only at hk
  split at hk
  · cases hk
    refine ⟨fun x hx => by simp at hx, fun x hx => ?_⟩
    simp only [Option.some.injEq] at hx
    subst hx
    intro d hd
    simp at hd
  · cases hk

theorem demo_has {names : List Name} {k : Name} (h : HasVar demoLinks 0 names k) : k = [120] ∨ k = [121] := by
  obtain ⟨n, h5, -, ⟨ms, hms, hm⟩, -⟩ := h
  match n, hms with
  | 0, hms => cases hms; simp at hm; exact .inr hm.1
  | 1, hms => cases hms; simp at hm; exact .inl hm.1
  | _ + 2, hms => cases hms; simp at hm

/-- The demo file opens, at the root and in the group `a`. -/
theorem demo_xr (p : Profile) (path : Name) {group : Option Name} {names : List Name} (hg : GroupArg group names) :
    ∃ fuel res, xrOpen p path demoLinks (some 0) demoNc group fuel = ok res := by
  refine (C95_opens demo_named hg (demoNc_ok group)).2 ⟨demo_ends, demo_indexable p, _, rfl, fun k hk => ?_⟩
  exact ⟨⟨some ⟨some 7, none⟩, none⟩, some ⟨some 7, none⟩, if_pos (demo_has hk), rfl⟩

example : GroupArg none [] := .root

example : GroupArg (some [47, 97, 47]) [[97]] :=
  GroupArg.path (names := [[97]]) 1 1 (by simp) (by simp only [Plain]; decide)

/-- A file with a dataset that has never been written to, and has no storage, at `/x`, and another at `/y`. -/
def bareLinks : H5Links
  | 0 => ⟨some [([120], some { demoH5 with isChunked := false, chunk := none }), ([121], some demoH5)], some []⟩
  | _ => ⟨some [], some []⟩

/-- Not C95 as one would like it: of the two variables that netCDF4 shows the one that has never been written to,
which should read as its fill value, is missing. -/
theorem not_C95_unwritten (p : Profile) (path : Name) : ∃ fuel idx fl,
    xrOpen p path bareLinks (some 0) demoNc none fuel = ok (idx, [([121], fl)]) ∧
    ∃ vars v, demoNc none = some vars ∧ vars [120] = some v := by
  have hin : ∀ {a b : Nat} {key : Name}, ¬ Inside bareLinks a key b := by
    rintro a b key ⟨gs, name, hgs, hm, -⟩
    match a, hgs with
    | 0, hgs => cases hgs; simp at hm
    | _ + 1, hgs => cases hgs; simp at hm
  have hvis : ∀ {n : Nat}, Visited bareLinks 0 n → n = 0 := by
    rintro n ⟨names, hl⟩
    cases hl with
    | here => rfl
    | down h _ => exact absurd h hin
  have hE : ¬ Endless bareLinks 0 := by
    rintro ⟨chain, h0, hc⟩
    obtain ⟨k, h⟩ := hc 0
    exact hin h
  have hN : Named bareLinks 0 := by
    intro n hn
    rw [hvis hn]
    exact ⟨fun ms h => by cases h; decide, fun gs h => by cases h; simp⟩
  have hI : Indexable p bareLinks 0 := by
    intro n hn
    rw [hvis hn]
    refine ⟨by simp [bareLinks], by simp [bareLinks], ?_⟩
    rintro d h ⟨ms, hms, hm⟩ ha
    cases hms
    simp only [List.mem_cons, Prod.mk.injEq, Option.some.injEq, List.not_mem_nil, or_false] at hm
    rcases hm with ⟨-, rfl⟩ | ⟨-, rfl⟩
    · simp [HasStorage, demoH5] at ha
    · exact demoH5_indexed p
  have hhas : ∀ k, HasVar bareLinks 0 [] k ↔ k = [121] := by
    intro k
    constructor
    · rintro ⟨n, h, hl, ⟨ms, hms, hm⟩, ha⟩
      cases hl
      cases hms
      simp only [List.mem_cons, Prod.mk.injEq, Option.some.injEq, List.not_mem_nil, or_false] at hm
      rcases hm with ⟨-, rfl⟩ | ⟨h, -⟩
      · simp [HasStorage, demoH5] at ha
      · exact h
    · rintro rfl
      exact ⟨0, demoH5, .here 0, ⟨_, rfl, by simp⟩, .inl rfl⟩
  obtain ⟨fuel, ⟨idx, r⟩, h⟩ := (C95_opens (p := p) (path := path) hN .root (demoNc_ok none)).2
    ⟨hE, hI, _, rfl, fun k hk => ⟨⟨some ⟨some 7, none⟩, none⟩, some ⟨some 7, none⟩,
      if_pos (.inr ((hhas k).1 hk)), rfl⟩⟩
  obtain ⟨h1, h2, -, -⟩ := C95_shown hN .root rfl (fun k v => demoNc_ok none _ k v rfl) h
  simp only [hhas] at h2
  obtain ⟨fl, hfl⟩ : ∃ fl, r = [([121], fl)] := by
    match r, h1, h2 with
    | [], _, h2 => exact absurd ((h2 [121]).2 rfl) (by simp)
    | [(k, fl)], _, h2 =>
      have := (h2 k).1 (by simp)
      exact ⟨fl, by rw [this]⟩
    | a :: b :: r, h1, h2 =>
      have ha := (h2 a.1).1 (by simp)
      have hb := (h2 b.1).1 (by simp)
      simp [ha, hb] at h1
  subst hfl
  exact ⟨fuel, idx, fl, h, _, _, rfl, if_pos (.inl rfl)⟩

end Hidefix.Props
