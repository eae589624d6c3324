import Verif.Props.XrIndex
import Verif.Model.XrPoints
import Verif.Spec.XrPoints

/-!
# C98: picking points from a variable of the xarray backend
-/

namespace Hidefix.Props
open Hidefix Hidefix.Spec Hidefix.Proofs Outcome

/-! ## The points, dimension by dimension -/

theorem mapM_of_at {f : Int → Option Nat} {l : List Int} {ks : List Nat} (hl : l.length = ks.length)
    (h : ∀ i < ks.length, f (l.getD i 0) = some (ks.getD i 0)) : l.mapM f = some ks := by
  induction ks generalizing l with
  | nil =>
    obtain rfl : l = [] := List.length_eq_zero_iff.1 (by simpa using hl)
    rfl
  | cons k ks ih =>
    cases l with
    | nil => simp at hl
    | cons a l =>
      have h0 := h 0 (by simp)
      simp only [List.getD_cons_zero] at h0
      have ht := ih (l := l) (by simpa using hl) fun i hi => by
        have := h (i + 1) (by simpa using hi)
        simpa only [List.getD_cons_succ] using this
      rw [List.mapM_cons, h0, ht]
      rfl

theorem xrSelects_of_at {shape : List Nat} {key : List (List Int)} {ls : List (List Nat)}
    (h1 : key.length = shape.length) (h2 : ls.length = shape.length)
    (h : ∀ d < shape.length, xrPicks (shape.getD d 0) (.array (key.getD d [])) = some (ls.getD d [])) :
    XrSelects shape (key.map .array) ls := by
  induction shape generalizing key ls with
  | nil =>
    obtain rfl : key = [] := List.length_eq_zero_iff.1 (by simpa using h1)
    obtain rfl : ls = [] := List.length_eq_zero_iff.1 (by simpa using h2)
    trivial
  | cons n ns ih =>
    cases key with
    | nil => simp at h1
    | cons a key =>
      cases ls with
      | nil => simp at h2
      | cons l ls =>
        refine ⟨by simpa only [List.getD_cons_zero] using h 0 (by simp), ?_⟩
        exact ih (by simpa using h1) (by simpa using h2) fun d hd => by
          have := h (d + 1) (by simpa using hd)
          simpa only [List.getD_cons_succ] using this

/-- The indices of the points in every dimension. -/
def columns (rank : Nat) (points : List (List Nat)) : List (List Nat) := (List.range rank).map (along points)

theorem along_at (points : List (List Nat)) (d i : Nat) : (along points d).getD i 0 = (points.getD i []).getD d 0 := by
  unfold along
  rw [List.getD_eq_getElem?_getD, List.getElem?_map, List.getD_eq_getElem?_getD (l := points)]
  cases points[i]? <;> simp

theorem picksPoints_columns {shape : List Nat} {key : List (List Int)} {m : Nat} {points : List (List Nat)}
    (h : PicksPoints shape key m points) :
    XrSelects shape (key.map .array) (columns shape.length points) ∧
    ∀ i < m, (columns shape.length points).map (fun l => l.getD i 0) = points.getD i [] := by
  obtain ⟨h1, h2, h3, h4⟩ := h
  refine ⟨xrSelects_of_at h1 (by simp [columns]) fun d hd => ?_, fun i hi => ?_⟩
  · have hc : (columns shape.length points).getD d [] = along points d := by
      simp [columns, List.getD_eq_getElem?_getD, hd]
    rw [hc]
    have hk : (key.getD d []).length = m := by
      rw [List.getD_eq_getElem?_getD, List.getElem?_eq_getElem (by omega)]
      exact h2 _ (List.getElem_mem _)
    refine mapM_of_at (by rw [hk]; simp [along, h3]) fun i hi => ?_
    have hi : i < m := by simpa [along, h3] using hi
    rw [along_at]
    exact (h4 i hi).2 d hd
  · apply List.ext_getElem
    · rw [(h4 i hi).1]; simp [columns]
    · intro d hd1 hd2
      simp only [columns, List.getElem_map, List.getElem_range]
      rw [along_at, List.getD_eq_getElem?_getD (l := points.getD i []), List.getElem?_eq_getElem hd2]
      rfl

theorem arrays_kept (key : List (List Int)) (ls : List (List Nat)) (h : key.length = ls.length) :
    spans (key.map .array) ls = ls.map span ∧
    relative (key.map .array) ls = ls.map fun l => l.map fun x => x - low l := by
  induction key generalizing ls with
  | nil =>
    obtain rfl : ls = [] := List.length_eq_zero_iff.1 (by simpa using h.symm)
    exact ⟨rfl, rfl⟩
  | cons a key ih =>
    cases ls with
    | nil => simp at h
    | cons l ls =>
      obtain ⟨i1, i2⟩ := ih ls (by simpa using h)
      exact ⟨by simp [spans, i1], by simp [relative, i2]⟩

theorem box_at {f : List Nat → Nat} {ls : List (List Nat)} (h : ∀ l ∈ ls, low l ≤ f l ∧ f l < low l + span l) :
    npFlat (ls.map span) (ls.map fun l => f l - low l) < (ls.map span).prod ∧
    (combine (ls.map box))[npFlat (ls.map span) (ls.map fun l => f l - low l)]? = some (ls.map f) := by
  have hlenB : ∀ bs : List (List Nat), (combine (bs.map box)).length = (bs.map span).prod := by
    intro bs
    rw [combine_length, List.map_map]
    congr 1
    apply List.map_congr_left
    intro b _
    simp [box]
  have key : (combine (ls.map box))[npFlat (ls.map span) (ls.map fun l => f l - low l)]? = some (ls.map f) := by
    induction ls with
    | nil => rfl
    | cons l ls ih =>
      have ih := ih fun x hx => h x (by simp [hx])
      have hl := h l (by simp)
      have hj : npFlat (ls.map span) (ls.map fun l => f l - low l) < (ls.map span).prod := by
        rw [← hlenB]
        by_contra hc
        rw [List.getElem?_eq_none (by omega)] at ih
        simp at ih
      simp only [List.map_cons, npFlat, combine, box]
      rw [flatMap_get (fun x => (combine (ls.map box)).map fun r => x :: r) (span l) (ls.map span).prod
        (fun k => by rw [List.length_map, hlenB]) (by omega) hj, List.getElem?_map, ih]
      simp only [Option.map_some]
      congr 2
      omega
  refine ⟨?_, key⟩
  rw [← hlenB]
  by_contra hc
  rw [List.getElem?_eq_none (by omega)] at key
  simp at key

theorem low_span_mem {l : List Nat} (h : l ≠ []) :
    low l ∈ l ∧ low l + span l - 1 ∈ l ∧ ∀ x ∈ l, low l ≤ x ∧ x < low l + span l := by
  obtain ⟨a, ha⟩ : ∃ a, l.min? = some a := Option.isSome_iff_exists.1 (by
    rw [Option.isSome_iff_ne_none, Ne, List.min?_eq_none_iff]; exact h)
  obtain ⟨b, hb⟩ : ∃ b, l.max? = some b := Option.isSome_iff_exists.1 (by
    rw [Option.isSome_iff_ne_none, Ne, List.max?_eq_none_iff]; exact h)
  obtain ⟨a1, a2⟩ := List.min?_eq_some_iff.1 ha
  obtain ⟨b1, b2⟩ := List.max?_eq_some_iff.1 hb
  have e1 : low l = a := by simp [low, ha]
  have e2 : span l = b + 1 - a := by simp [span, hb, e1]
  have := a2 b b1
  refine ⟨e1 ▸ a1, ?_, fun x hx => ?_⟩
  · rw [e1, e2, show a + (b + 1 - a) - 1 = b by omega]; exact b1
  · have h1 := a2 x hx
    have h2 := b2 x hx
    omega

theorem span_one {l : List Nat} (h : l ≠ []) : span l ≠ 1 ↔ ∃ x ∈ l, ∃ y ∈ l, x ≠ y := by
  obtain ⟨h1, h2, h3⟩ := low_span_mem h
  have := h3 _ h1
  constructor
  · intro hs
    exact ⟨_, h1, _, h2, by omega⟩
  · rintro ⟨x, hx, y, hy, hne⟩ hs
    have := h3 x hx
    have := h3 y hy
    omega

theorem spread_keeps {rank : Nat} {points : List (List Nat)} {key : List (List Int)} (hk : key.length = rank)
    (h0 : 0 < rank) (hp : points ≠ []) :
    KeepsDims (key.map .array) (columns rank points) ↔ Spread rank points := by
  unfold KeepsDims Spread
  rw [(arrays_kept key (columns rank points) (by simp [columns, hk])).1]
  have hl : ((columns rank points).map span).length = rank := by simp [columns]
  have hne : (columns rank points).map span ≠ [] := by
    intro e
    rw [e] at hl
    simp at hl
    omega
  rw [hl]
  refine or_congr Iff.rfl ?_
  rw [and_iff_right hne]
  simp only [columns, List.map_map, List.mem_map, List.mem_range, Function.comp, not_exists, not_and]
  refine forall_congr' fun d => forall_congr' fun _ => ?_
  have hal : along points d ≠ [] := by simp [along, hp]
  refine (span_one hal).trans ?_
  simp [along]

/-! ## Reading -/

/-- The elements numpy picks from the array that comes back. -/
def pickedPoints (ls : List (List Nat)) (m : Nat) (vs : List (List Byte)) : List (List Byte) :=
  (List.range m).map fun i =>
    vs.getD (npFlat (ls.map span) ((ls.map fun l => l.map fun x => x - low l).map fun l => l.getD i 0)) []

theorem pickedPoints_right {ls : List (List Nat)} {m : Nat} (hl : ∀ l ∈ ls, l.length = m)
    {A : List Nat → List Byte} {vs : List (List Byte)} {P : List Byte → List Byte → Prop}
    (hv : List.Forall₂ P ((combine (ls.map box)).map A) vs) :
    List.Forall₂ P ((List.range m).map fun i => A (ls.map fun l => l.getD i 0)) (pickedPoints ls m vs) := by
  unfold pickedPoints
  rw [List.forall₂_map_left_iff, List.forall₂_map_right_iff, List.forall₂_same]
  intro i hi
  have hi : i < m := List.mem_range.1 hi
  have hrel : ((ls.map fun l => l.map fun x => x - low l).map fun l => l.getD i 0) =
      ls.map fun l => l.getD i 0 - low l := by
    rw [List.map_map]
    refine List.map_congr_left fun l hl' => ?_
    have : i < l.length := by rw [hl l hl']; exact hi
    simp [List.getD_eq_getElem?_getD, this]
  obtain ⟨h0, hx⟩ := box_at (f := fun l => l.getD i 0) (ls := ls) fun l hl' => by
    have : i < l.length := by rw [hl l hl']; exact hi
    refine (low_span_mem (by intro e; simp [e] at this)).2.2 _ ?_
    rw [List.getD_eq_getElem?_getD, List.getElem?_eq_getElem this]
    exact List.getElem_mem _
  rw [hrel]
  have h1 : ((combine (ls.map box)).map A)[npFlat (ls.map span) (ls.map fun l => l.getD i 0 - low l)]? =
      some (A (ls.map fun l => l.getD i 0)) := by
    rw [List.getElem?_map, hx]; rfl
  have hlt : npFlat (ls.map span) (ls.map fun l => l.getD i 0 - low l) < vs.length := by
    rw [← hv.length_eq]
    by_contra hc
    rw [List.getElem?_eq_none (by omega)] at h1
    simp at h1
  rw [List.getD_eq_getElem?_getD, List.getElem?_eq_getElem hlt]
  exact forall₂_at hv h1 (List.getElem?_eq_getElem hlt)

theorem unit_arrays (key : List (List Int)) : ∀ it ∈ key.map XrItem.array, UnitStep it := by
  intro it hi
  obtain ⟨a, -, rfl⟩ := List.mem_map.1 hi
  trivial

theorem xrPoints_of {p : Profile} {narrow : List Byte → List Byte} {hst : Host} {g : GroupIndex}
    {rd : Dataset → ByteReader} {junk : Nat → Byte} {sched : List Nat}
    {shape : List Nat} {name : Name} {group : Option Name} {fill : Option PyScalar} {key : List (List Int)}
    {ls : List (List Nat)} {r : List (PyItem × Option NpItem)} {t : Prim} {vs : List (List Byte)} {pts : List Nat}
    (hk : key.length = ls.length)
    (h : Split shape (key.map .array) ls r) (hf : KeepsDims (key.map .array) ls) (hv : ∀ v ∈ vs, v.length = t.size)
    (hget : xrGetItem p narrow hst g rd junk sched name group fill (r.map Prod.fst) =
      ok (t, squeezed ((ls.map box).map List.length), vs.flatten)) :
    xrPoints p narrow hst g rd junk sched shape name group fill pts key =
      ok (t, pts, (pickedPoints ls pts.prod vs).flatten) := by
  have hb : (ls.map box).map List.length = ls.map span := by
    rw [List.map_map]
    exact List.map_congr_left fun l _ => by simp [box]
  obtain ⟨a1, a2⟩ := arrays_kept key ls hk
  rw [hb, fits_squeezed h hf] at hget
  obtain ⟨f1, -, -, -, f5, f6, f7, -, -, -, -, -⟩ := split_facts h
  have hsz : 0 < t.size := by cases t <;> simp [Prim.size]
  unfold xrPoints
  simp only [f1, ok_bind, hget, words_flatten hsz hv, npPoints]
  rw [if_pos f6, f5, a1, a2]
  rfl

/-- **C98** (restricted to points that are spread over every dimension, and `Good` selections from the first index to
the last of every dimension): picking points from a variable of the xarray backend gives the elements at the points,
in the shape of the arrays of the key, the ones equal to the fill value replaced by NaN. -/
theorem C98_partial {p : Profile} {hst : Host} {t : Prim} {io : Io} {file : List Byte} {g : GroupIndex}
    {name : Name} {group : Option Name} {hd : Option Name × Name} {ds : Dataset}
    {A : List Nat → List Byte} {pts : List Nat} {key : List (List Int)} {points : List (List Nat)}
    {sort : List GItem → List GItem} {rd : Dataset → ByteReader} {narrow : List Byte → List Byte}
    {sched : List Nat}
    (hfind : pyDataset g name group = some hd) (hds : pyHandle g hd = ok ds)
    (hwf : WF p ds) (had : AddrDet ds) (hio : io.file = some file) (hst' : Stores io.inflate file ds A)
    (hsz : Sizes file ds) (ht : ds.dtype = numpyType t) (hsw : Swaps hst t ∨ ds.order ≠ .LE)
    (ho : ds.order ≠ .Unknown)
    (hsort : ∀ l, SortedByAddr l (sort l))
    (hrd : ∀ ext dst, DirectReadToPar p io ds sort ext dst (rd ds ext dst))
    (hn : ∀ n ∈ ds.shape, n < 2 ^ 63) (h0 : 0 < ds.shape.length)
    (hsel : PicksPoints ds.shape key pts.prod points) (hne : points ≠ [])
    (hspread : Spread ds.shape.length points)
    (hg : Good p ds ((List.range ds.shape.length).map fun d => low (along points d))
      ((List.range ds.shape.length).map fun d => span (along points d)))
    (hmem : ((List.range ds.shape.length).map fun d => span (along points d)).prod * ds.dsize < 2 ^ 63)
    (hnar : Narrows narrow)
    (hs : sched.Perm (List.range ((List.range ds.shape.length).map fun d => span (along points d)).prod)) :
    -- no fill value
    (∃ vs, (∀ junk, xrPoints p narrow hst g rd junk sched ds.shape name group none pts key =
          ok (t, pts, vs.flatten)) ∧
        List.Forall₂ (fun e v => v.length = t.size ∧ msFirst hst.native v = msFirst ds.order e)
          (points.map A) vs) ∧
    -- a fill value of a variable of floats
    (t.isFloat = true → ∀ f c, FloatOf narrow t f c →
      ∃ vs, (∀ junk, xrPoints p narrow hst g rd junk sched ds.shape name group (some f) pts key =
          ok (t, pts, vs.flatten)) ∧
        List.Forall₂ (fun e v => v.length = t.size ∧
          if FloatEq (msFirst ds.order e) c then floatVal (msFirst hst.native v) = .nan
          else msFirst hst.native v = msFirst ds.order e)
          (points.map A) vs) := by
  obtain ⟨hcol, hat⟩ := picksPoints_columns hsel
  have hk : key.length = (columns ds.shape.length points).length := by simp [columns, hsel.1]
  have hfit := (spread_keeps hsel.1 h0 hne).2 hspread
  have hlow : (columns ds.shape.length points).map low =
      (List.range ds.shape.length).map fun d => low (along points d) := by simp [columns, Function.comp_def]
  have hspan : (columns ds.shape.length points).map span =
      (List.range ds.shape.length).map fun d => span (along points d) := by simp [columns, Function.comp_def]
  rw [← hlow, ← hspan] at hg
  rw [← hspan] at hmem hs
  have hlen : ∀ l ∈ columns ds.shape.length points, l.length = pts.prod := by
    intro l hl
    obtain ⟨d, -, rfl⟩ := List.mem_map.1 hl
    simp [along, hsel.2.2.1]
  have hpoints : (List.range pts.prod).map (fun i => A ((columns ds.shape.length points).map fun l => l.getD i 0)) =
      points.map A := by
    apply List.ext_getElem
    · simp [hsel.2.2.1]
    · intro i h1 h2
      have hi : i < points.length := by simpa using h2
      simp only [List.getElem_map, List.getElem_range]
      rw [hat i (by rw [← hsel.2.2.1]; exact hi), List.getD_eq_getElem?_getD, List.getElem?_eq_getElem hi]
      rfl
  have hne' : ∀ l ∈ columns ds.shape.length points, l ≠ [] := by
    intro l hl
    obtain ⟨d, -, rfl⟩ := List.mem_map.1 hl
    simp [along, hne]
  clear hlow hspan hat
  generalize columns ds.shape.length points = ls at *
  obtain ⟨r, hr⟩ := split_ok hcol hne' (unit_arrays key)
  obtain ⟨-, f2, f3, f4, -⟩ := split_facts hr
  have hb : (ls.map box).map List.length = ls.map span := by
    rw [List.map_map]
    exact List.map_congr_left fun l _ => by simp [box]
  have hfst : firsts (ls.map box) = ls.map low := by
    unfold firsts
    rw [List.map_map]
    refine List.map_congr_left fun l hl => ?_
    obtain ⟨c, hc⟩ := Nat.exists_eq_succ_of_ne_zero (f4 l hl).ne'
    simp [box, hc, List.range'_succ]
  obtain ⟨⟨vs, v1, v2⟩, w⟩ := C61_partial (narrow := narrow) (sched := sched) hfind hds hwf had hio hst' hsz ht hsw ho
    hsort hrd hn f2 (fun b hb => by
      obtain ⟨l, hl, rfl⟩ := List.mem_map.1 hb
      intro e
      have := f4 l hl
      have := congrArg List.length e
      simp [box] at this
      omega) f3 (by rw [hfst, hb]; exact hg) (by rw [hb]; exact hmem) hnar
    (by rw [combine_length, hb]; exact hs)
  have sz : ∀ {Q : List Byte → List Byte → Prop} {vs : List (List Byte)},
      List.Forall₂ (fun e v => v.length = t.size ∧ Q e v) ((combine (ls.map box)).map A) vs →
      ∀ v ∈ vs, v.length = t.size := fun hq v hv => by
    obtain ⟨e, -, h, -⟩ := forall₂_mem_right hq hv
    exact h
  refine ⟨⟨_, fun junk => xrPoints_of hk hr hfit (sz v2) (v1 junk), ?_⟩, fun hfl f c hc => ?_⟩
  · rw [← hpoints]; exact pickedPoints_right hlen v2
  · obtain ⟨ws, w1, w2⟩ := w hfl f c hc
    refine ⟨_, fun junk => xrPoints_of hk hr hfit (sz w2) (w1 junk), ?_⟩
    rw [← hpoints]; exact pickedPoints_right hlen w2

/-! ## What fails -/

/-- C98 fails: if there are two dimensions or more, and the points have the same index in one of them, the read
raises, whatever the file, the fill value and the schedule. In particular no single point can be picked from a
variable of two dimensions. With `C98_partial`: the points that can be picked are those that are spread. -/
theorem C98_fails {p : Profile} {hst : Host} {g : GroupIndex} {name : Name} {group : Option Name}
    {hd : Option Name × Name} {ds : Dataset} {pts : List Nat} {key : List (List Int)} {points : List (List Nat)}
    (hfind : pyDataset g name group = some hd) (hds : pyHandle g hd = ok ds)
    (hn : ∀ n ∈ ds.shape, n < 2 ^ 63) (h0 : 0 < ds.shape.length)
    (hsel : PicksPoints ds.shape key pts.prod points) (hne : points ≠ [])
    (hspread : ¬ Spread ds.shape.length points)
    (narrow : List Byte → List Byte) (rd : Dataset → ByteReader) (junk : Nat → Byte) (sched : List Nat)
    (fill : Option PyScalar) (res : Prim × List Nat × List Byte) :
    xrPoints p narrow hst g rd junk sched ds.shape name group fill pts key ≠ ok res := by
  obtain ⟨hcol, -⟩ := picksPoints_columns hsel
  have hk : key.length = (columns ds.shape.length points).length := by simp [columns, hsel.1]
  have hfit := (spread_keeps hsel.1 h0 hne).not.2 hspread
  have hne' : ∀ l ∈ columns ds.shape.length points, l ≠ [] := by
    intro l hl
    obtain ⟨d, -, rfl⟩ := List.mem_map.1 hl
    simp [along, hne]
  have hpos : 0 < (columns ds.shape.length points).length := by simpa [columns] using h0
  generalize columns ds.shape.length points = ls at *
  obtain ⟨r, hr⟩ := split_ok hcol hne' (unit_arrays key)
  obtain ⟨f1, f2, f3, f4, -, f6, -⟩ := split_facts hr
  intro h
  unfold xrPoints at h
  simp only [f1, ok_bind] at h
  obtain ⟨⟨t, dims, bytes⟩, h1, h⟩ := bind_eq_ok.1 h
  obtain ⟨start, count, h2, rfl⟩ := xrGetItem_dims hfind hds h1
  have hb : (ls.map box).map List.length = ls.map span := by
    rw [List.map_map]
    exact List.map_congr_left fun l _ => by simp [box]
  obtain ⟨s', c', k1, -, -, k2⟩ := C39_select_partial (p := p) hn f2 (fun b hb => by
      obtain ⟨l, hl, rfl⟩ := List.mem_map.1 hb
      intro e
      have := f4 l hl
      have := congrArg List.length e
      simp [box] at this
      omega) f3
  rw [h2] at k1
  obtain ⟨-, rfl⟩ := Prod.mk.inj (Outcome.ok.inj k1)
  rw [hb] at k2
  subst k2
  obtain ⟨a1, -⟩ := arrays_kept key ls hk
  have hsp : spans (key.map .array) ls ≠ [] := by
    rw [a1]
    intro e
    have := congrArg List.length e
    simp at this
    simp [this] at hpos
  have hlen : 2 ≤ (spans (key.map .array) ls).length ∧ 1 ∈ spans (key.map .array) ls := by
    unfold KeepsDims at hfit
    push Not at hfit
    have := List.length_pos_iff.2 hsp
    exact ⟨by omega, hfit.2 hsp⟩
  have hd : (pyShape (ls.map span)).length < (spans (key.map .array) ls).length := by
    rw [pyShape_squeezed (fun c hc => by
      obtain ⟨l, hl, rfl⟩ := List.mem_map.1 hc
      have := f4 l hl
      omega)]
    unfold squeezed
    split
    · simp; omega
    · rw [a1] at hlen ⊢
      refine List.length_filter_lt_length_iff_exists.2 ⟨1, hlen.2, by simp⟩
  simp only [npPoints] at h
  rw [if_neg (by omega)] at h
  simp at h

/-- C98 fails for every variable with two or more dimensions: its first element cannot be picked. -/
theorem not_C98 {p : Profile} {hst : Host} {g : GroupIndex} {name : Name} {group : Option Name}
    {hd : Option Name × Name} {ds : Dataset} (hfind : pyDataset g name group = some hd) (hds : pyHandle g hd = ok ds)
    (hn : ∀ n ∈ ds.shape, 0 < n ∧ n < 2 ^ 63) (h2 : 2 ≤ ds.shape.length)
    (narrow : List Byte → List Byte) (rd : Dataset → ByteReader) (junk : Nat → Byte) (sched : List Nat)
    (fill : Option PyScalar) :
    PicksPoints ds.shape (ds.shape.map fun _ => [0]) 1 [ds.shape.map fun _ => 0] ∧
    ∀ res, xrPoints p narrow hst g rd junk sched ds.shape name group fill [1] (ds.shape.map fun _ => [0]) ≠ ok res := by
  have hsel : PicksPoints ds.shape (ds.shape.map fun _ => [0]) 1 [ds.shape.map fun _ => 0] := by
    refine ⟨by simp, ?_, rfl, fun i hi => ?_⟩
    · intro a ha
      obtain ⟨n, -, rfl⟩ := List.mem_map.1 ha
      rfl
    · obtain rfl : i = 0 := by omega
      refine ⟨by simp, fun d hd => ?_⟩
      have hpos := (hn _ (List.getElem_mem hd)).1
      simp only [List.getD_eq_getElem?_getD, List.getElem?_map, List.getElem?_eq_getElem hd, Option.map_some,
        Option.getD_some, List.getElem?_cons_zero]
      unfold indexOf fromEnd
      rw [if_pos (by omega), if_neg (by omega)]
      rfl
  refine ⟨hsel, fun res => C98_fails hfind hds (fun n hm => (hn n hm).2) (by omega) (by simpa using hsel) (by simp) ?_
    narrow rd junk sched fill res⟩
  rintro (h | h)
  · omega
  · obtain ⟨x, hx, y, hy, hne⟩ := h 0 (by omega)
    simp only [List.mem_singleton] at hx hy
    exact hne (by rw [hx, hy])

/-- C98 fails for no points at all: the read raises, where numpy gives an empty array. -/
theorem C98_none {p : Profile} {hst : Host} {g : GroupIndex} {shape : List Nat} {key : List (List Int)}
    (h0 : 0 < shape.length) (hsel : PicksPoints shape key 0 [])
    (narrow : List Byte → List Byte) (rd : Dataset → ByteReader) (junk : Nat → Byte) (sched : List Nat)
    (name : Name) (group : Option Name) (fill : Option PyScalar) (pts : List Nat)
    (res : Prim × List Nat × List Byte) :
    xrPoints p narrow hst g rd junk sched shape name group fill pts key ≠ ok res := by
  obtain ⟨h1, h2, -⟩ := hsel
  cases shape with
  | nil => simp at h0
  | cons n ns =>
    cases key with
    | nil => simp at h1
    | cons a key =>
      have := List.length_eq_zero_iff.1 (h2 a (by simp))
      subst this
      simp [xrPoints, xrDecompose, xrItem]

/-! ### Cases that meet the hypotheses -/

/-- The points `(2, 3)`, `(0, 1)`, `(0, 2)` of a variable of shape `(3, 4)` are spread; `(2, 3)`, `(0, 3)` are not. -/
example : PicksPoints [3, 4] [[2, 0, -3], [-1, 1, 2]] 3 [[2, 3], [0, 1], [0, 2]] ∧
    Spread 2 [[2, 3], [0, 1], [0, 2]] ∧
    PicksPoints [3, 4] [[2, 0], [3, 3]] 2 [[2, 3], [0, 3]] ∧ ¬ Spread 2 [[2, 3], [0, 3]] := by
  refine ⟨by unfold PicksPoints; decide, by unfold Spread; decide, by unfold PicksPoints; decide,
    by unfold Spread; decide⟩

/-- `t[[[2, 0], [0, -2]]]` through the backend: `2.0, 1.0, 1.0, NaN` as little-endian singles, of shape `(2, 2)`. -/
example (p : Profile) (rd : Dataset → ByteReader)
    (hrd : ∀ ext dst, DirectReadToPar p XrDemo.io XrDemo.ds sortByAddr ext dst (rd XrDemo.ds ext dst))
    (junk : Nat → Byte) :
    ∃ b, floatVal (msFirst .LE b) = .nan ∧ b.length = 4 ∧
    xrPoints p XrDemo.narrow .little XrDemo.g rd junk [2, 0, 1] [3] [116] none (some XrDemo.fill)
      [2, 2] [[2, 0, 0, -2]] =
      ok (.f32, [2, 2], [0, 0, 0, 0x40, 0, 0, 0x80, 0x3f, 0, 0, 0x80, 0x3f] ++ b) := by
  obtain ⟨-, h⟩ := C98_partial (p := p) (hst := .little) (t := .f32) (io := XrDemo.io) (file := XrDemo.file)
    (g := XrDemo.g) (name := [116]) (group := none) (hd := (none, [116])) (ds := XrDemo.ds) (A := XrDemo.A)
    (pts := [2, 2]) (key := [[2, 0, 0, -2]]) (points := [[2], [0], [0], [1]]) (sort := sortByAddr) (rd := rd)
    (narrow := XrDemo.narrow) (sched := [2, 0, 1])
    rfl rfl (XrDemo.wf p) (by unfold AddrDet; decide) rfl XrDemo.stores ⟨by decide, by decide, by decide, by decide⟩ rfl
    (.inl (.inl rfl)) (by decide) sortByAddr_ok hrd (by decide) (by decide) (by unfold PicksPoints; decide) (by decide)
    (.inl rfl) (by unfold Good; cases p <;> decide) (by decide) XrDemo.narrows (by decide)
  obtain ⟨vs, h1, h2⟩ := h rfl XrDemo.fill [0x7c, 0xf0, 0, 0] ⟨_, rfl, rfl, by decide +kernel⟩
  have h1 := h1 junk
  match vs, h2 with
  | [c, a, a', b], .cons ⟨_, hc⟩ (.cons ⟨_, ha⟩ (.cons ⟨_, ha'⟩ (.cons ⟨hbl, hb⟩ .nil))) =>
    rw [if_neg (by decide +kernel)] at ha ha' hc
    rw [if_pos (by decide +kernel)] at hb
    have ra : a = [0, 0, 0x80, 0x3f] := by
      have := congrArg (msFirst .LE) ha
      rw [show Host.little.native = .LE from rfl, msFirst_twice] at this
      rw [this]; decide +kernel
    have ra' : a' = [0, 0, 0x80, 0x3f] := by
      have := congrArg (msFirst .LE) ha'
      rw [show Host.little.native = .LE from rfl, msFirst_twice] at this
      rw [this]; decide +kernel
    have rc : c = [0, 0, 0, 0x40] := by
      have := congrArg (msFirst .LE) hc
      rw [show Host.little.native = .LE from rfl, msFirst_twice] at this
      rw [this]; decide +kernel
    subst ra ra' rc
    exact ⟨b, hb, hbl, h1.trans (by simp)⟩

/-- The point `(2, 1)` of a variable of shape `(3, 4)` cannot be picked. -/
example (p : Profile) (narrow : List Byte → List Byte) (rd : Dataset → ByteReader) (junk : Nat → Byte)
    (res : Prim × List Nat × List Byte) :
    xrPoints p narrow .little (.mk none [([120], { XrDemo.ds with shape := [3, 4] })] []) rd junk [] [3, 4] [120]
      none none [1] [[2], [-3]] ≠ ok res :=
  C98_fails (g := .mk none [([120], { XrDemo.ds with shape := [3, 4] })] []) (hd := (none, [120]))
    (ds := { XrDemo.ds with shape := [3, 4] }) (points := [[2, 1]]) rfl rfl (by decide) (by decide)
    (by unfold PicksPoints; decide) (by decide) (by unfold Spread; decide) narrow rd junk [] none res

/-- No points of a variable of shape `(3, 4)`. -/
example (p : Profile) (narrow : List Byte → List Byte) (rd : Dataset → ByteReader) (junk : Nat → Byte)
    (res : Prim × List Nat × List Byte) :
    xrPoints p narrow .little XrDemo.g rd junk [] [3, 4] [116] none none [0] [[], []] ≠ ok res :=
  C98_none (by decide) (by unfold PicksPoints; decide) narrow rd junk [] [116] none none [0] res

/-- The hypotheses of `not_C98`: a variable of shape `(3, 4)`. -/
example : ∃ (g : GroupIndex) (ds : Dataset), pyDataset g [120] none = some (none, [120]) ∧
    pyHandle g (none, [120]) = ok ds ∧ (∀ n ∈ ds.shape, 0 < n ∧ n < 2 ^ 63) ∧ 2 ≤ ds.shape.length :=
  ⟨.mk none [([120], { XrDemo.ds with shape := [3, 4] })] [], { XrDemo.ds with shape := [3, 4] }, rfl, rfl,
    by decide, by decide⟩

end Hidefix.Props
