import Verif.Props.WholeXr
import Verif.Props.XrPoints

/-!
# C96 with xarray's points: the whole way from the file to the values at some points
-/

namespace Hidefix.Props
open Hidefix Hidefix.Spec Hidefix.Proofs Outcome

/-- C96 for picking points: a file is opened with the xarray backend, at the root or in a group. Every dataset of the
group that has storage and whose file stores the array `A` of native numbers is a variable, with the fill value its
attributes give; indexing it with an array of integers for every dimension, all of shape `pts`, gives the numbers stored
at the points, in that shape, the ones equal to the fill value replaced by NaN if the numbers are floats; variables of
integers with a fill value cannot be read. Restricted as `C98_partial` and C53. -/
theorem C96_points_partial {p : Profile} {hst : Host} {u : Prim} {inflate : List Byte → Option (List Byte)}
    {file : List Byte}
    {path : Name} {f : H5Links} {root fuel : Nat} {nc : NcAnswers} {group : Option Name} {names : List Name} {k : Name}
    {n : Nat} {h5 : H5Dataset} {t : H5Type} {A : List Nat → List Byte} {vars : Name → Option NcVar} {idx : Index}
    {r : List (Name × Option PyScalar)} {pts : List Nat} {key : List (List Int)}
    {points : List (List Nat)}
    {sort : List GItem → List GItem} {rd : Dataset → ByteReader} {narrow : List Byte → List Byte} {sched : List Nat}
    (hN : Named f root) (hg : GroupArg group names) (hnc : nc group = some vars)
    (hv : ∀ k v, vars k = some v → IsNcVar v)
    (hopen : xrOpen p path f (some root) nc group fuel = ok (idx, r))
    (hk : Plain k ∧ k ≠ []) (hl : Leads f root names n) (ho : Opens f n k h5) (ha : HasStorage h5)
    (hr : H5Readable inflate file h5 t A) (ht : IsNumber hst u t)
    (hsort : ∀ l, SortedByAddr l (sort l))
    (hrd : ∀ ds, DatasetD.index p h5 = ok ds → ∀ ext dst,
      DirectReadToPar p ⟨some file, inflate⟩ ds sort ext dst (rd ds ext dst))
    (hn : ∀ d ∈ h5.shape, d < 2 ^ 63) (h0 : 0 < h5.shape.length)
    (hsel : PicksPoints h5.shape key pts.prod points) (hne : points ≠ [])
    (hspread : Spread h5.shape.length points)
    (hgood : good p (dimsOf ((List.range h5.shape.length).map fun d => low (along points d))
      ((List.range h5.shape.length).map fun d => span (along points d)) (chunkShapeOf h5) h5.shape) = true)
    (hmem : ((List.range h5.shape.length).map fun d => span (along points d)).prod * u.size < 2 ^ 63)
    (hnar : Narrows narrow)
    (hs : sched.Perm (List.range ((List.range h5.shape.length).map fun d => span (along points d)).prod)) :
    ∃ fl v, (k, fl) ∈ r ∧ vars k = some v ∧ FillOf v fl ∧
      (fl = none → ∀ junk, xrPoints p narrow hst idx.root rd junk sched h5.shape k group fl pts key =
        ok (u, pts, points.flatMap A)) ∧
      (∀ s c, fl = some s → u.isFloat = true → FloatOf narrow u s c →
        ∃ vs, (∀ junk, xrPoints p narrow hst idx.root rd junk sched h5.shape k group fl pts key =
            ok (u, pts, vs.flatten)) ∧
          List.Forall₂ (fun x v => v.length = u.size ∧
            if FloatEq (msFirst hst.native (A x)) c then floatVal (msFirst hst.native v) = .nan else v = A x)
            points vs) ∧
      (∀ s, fl = some s → u.isFloat = false → ∀ junk res,
        xrPoints p narrow hst idx.root rd junk sched h5.shape k group fl pts key ≠ ok res) := by
  obtain ⟨-, h2, h3, h4⟩ := C95_shown hN hg hnc hv hopen
  obtain ⟨⟨k', fl⟩, he, rfl⟩ := List.mem_map.1 ((h2 k).2 ⟨n, h5, hl, ho, ha⟩)
  obtain ⟨v, hvk, hfl⟩ := h3 k' fl he
  obtain ⟨hd, ds, hfind, hds, hi⟩ := h4 k' n h5 hk.1 hk.2 hl ho ha
  obtain ⟨hwf, had, hst', hsz, e1, e2, e3, e4, e5⟩ := readable_index hr hi
  obtain ⟨t1, t2, t3⟩ := ht
  have hord : ds.order = hst.native := by
    rw [e2, t3]; cases hst <;> rfl
  have hty : ds.dtype = numpyType u := by
    rw [e1, (C52_partial t).1 u t2 t1]
    cases u <;> rfl
  have hsw : Swaps hst u ∨ ds.order ≠ .LE := by
    rw [hord]
    cases hst
    · exact .inl (.inl rfl)
    · exact .inr (by simp [Host.native])
  obtain ⟨c1, c2⟩ := C98_partial (io := ⟨some file, inflate⟩) (pts := pts) (key := key) (points := points) (sched := sched) hfind hds hwf
    had rfl hst' hsz hty hsw (by rw [hord]; cases hst <;> simp [Host.native]) hsort (hrd ds hi) (by rw [e3]; exact hn)
    (by rw [e3]; exact h0) (by rw [e3]; exact hsel) hne (by rw [e3]; exact hspread)
    (by unfold Good; rw [e3, e4]; exact hgood) (by rw [e3, e5, t1]; exact hmem) hnar (by rw [e3]; exact hs)
  rw [e3] at c1 c2
  refine ⟨fl, v, he, hvk, hfl, ?_, ?_, ?_⟩
  · rintro rfl
    obtain ⟨vs, a, b⟩ := c1
    intro junk
    rw [a junk]
    have : vs = points.map A := by
      rw [hord] at b
      clear a
      generalize points.map A = l at b
      induction b with
      | nil => rfl
      | cons hx _ ih => rw [ih, msFirst_native hx.2]
    rw [this, List.flatMap_def]
  · rintro s c rfl hf hc
    obtain ⟨vs, a, b⟩ := c2 hf s c hc
    refine ⟨vs, a, ?_⟩
    rw [List.forall₂_map_left_iff, hord] at b
    refine b.imp fun x w hw => ⟨hw.1, ?_⟩
    have := hw.2
    split at this
    · rename_i h; rw [if_pos h]; exact this
    · rename_i h; rw [if_neg h]; exact msFirst_native this
  · rintro s rfl hf junk res h
    unfold xrPoints at h
    obtain ⟨q, -, h⟩ := bind_eq_ok.1 h
    obtain ⟨y, h1, -⟩ := bind_eq_ok.1 h
    exact not_C61 rd hfind hds hty hf narrow junk sched s (q.map Prod.fst) y h1

/-- The demo file is opened in a group, and the points `(2, 3)`, `(0, 1)`, `(1, 1)`, `(0, 1)` of `x` are picked. -/
example (p : Profile) (path : Name) (rd : Dataset → ByteReader) (sort : List GItem → List GItem)
    (hsort : ∀ l, SortedByAddr l (sort l))
    (hrd : ∀ ds ext dst, DirectReadToPar p ⟨some Demo.file, Demo.inflate⟩ ds sort ext dst (rd ds ext dst)) :
    ∃ fuel idx r, xrOpen p path demoLinks (some 0) plainNc (some [47, 97]) fuel = ok (idx, r) ∧ ([120], none) ∈ r ∧
      ∀ junk, xrPoints p XrDemo.narrow .little idx.root rd junk [5, 3, 4, 0, 2, 1, 8, 7, 6] demoH5.shape
        [120] (some [47, 97]) none [2, 2] [[2, 0, -2, 0], [-1, 1, 1, 1]] =
      ok (.u16, [2, 2], [[2, 3], [0, 1], [1, 1], [0, 1]].flatMap Demo.A) := by
  have hg : GroupArg (some [47, 97]) [[97]] :=
    GroupArg.path (names := [[97]]) 1 0 (by simp) (by simp only [Plain]; decide)
  obtain ⟨fuel, ⟨idx, r⟩, h⟩ := (C95_opens (p := p) (path := path) demo_named hg (plainNc_ok _)).2
    ⟨demo_ends, demo_indexable p, _, rfl, fun k hk => ⟨⟨none, none⟩, none, if_pos (demo_has hk), rfl⟩⟩
  have hl : Leads demoLinks 0 [[97]] 1 := .down ⟨_, _, rfl, List.mem_singleton.2 rfl,
    ⟨by simp only [Plain]; decide, .inr ⟨[], rfl⟩⟩⟩ (.here 1)
  obtain ⟨fl, v, h1, h2, h3, h4, -, -⟩ := C96_points_partial (u := .u16) (pts := [2, 2])
    (key := [[2, 0, -2, 0], [-1, 1, 1, 1]]) (points := [[2, 3], [0, 1], [1, 1], [0, 1]])
    (sched := [5, 3, 4, 0, 2, 1, 8, 7, 6]) (hst := .little)
    (narrow := XrDemo.narrow) (k := [120]) demo_named hg rfl (fun k v => plainNc_ok none _ k v rfl) h
    ⟨by simp only [Plain]; decide, by simp⟩ hl ⟨_, rfl, List.mem_singleton.2 rfl⟩ (.inl rfl) demoH5_readable
    ⟨rfl, fun u' => by cases u' <;> decide, rfl⟩ hsort (fun ds _ => hrd ds) (by decide)
    (by decide) (by unfold PicksPoints; decide) (by decide) (by unfold Spread; decide)
    (by cases p <;> decide) (by decide) XrDemo.narrows (by decide)
  have hfl : fl = none := by
    rw [if_pos (.inl rfl)] at h2
    cases h2
    exact h3
  subst hfl
  exact ⟨fuel, idx, r, h, h1, h4 rfl⟩

end Hidefix.Props
