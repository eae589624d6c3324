import Verif.Props.FillValue

/-!
# Properties C61, C62: the xarray backend
-/

set_option autoImplicit false

namespace Hidefix.Props
open Hidefix Hidefix.Spec Hidefix.Proofs Outcome

/-! ## C61 -/

/-- Converting a double to a single: a NaN stays one. -/
def Narrows (narrow : List Byte → List Byte) : Prop :=
  ∀ d, d.length = 8 → (narrow d).length = 4 ∧ (floatVal d = .nan → floatVal (narrow d) = .nan)

/-- Numpy's `nan` is a NaN. -/
theorem pyNan_nan : ∃ d, pyNan.float = some d ∧ d.length = 8 ∧ floatVal d = .nan :=
  ⟨_, rfl, rfl, by decide +kernel⟩

/-- C61 for a variable without a fill value, and for a variable of floats with one: reading through the
xarray backend gives, for every selected coordinate in numpy's order, the number stored there, except that
the numbers equal to the fill value (converted to the element type) are replaced by NaN. Restricted as C39
(ints other than -1, slices of step 1 which select something, `Spec.Good` selections; the shape is
squeezed), and to a known byte order. -/
theorem C61_partial {p : Profile} {hst : Host} {t : Prim} {io : Io} {file : List Byte} {g : GroupIndex}
    {name : Name} {group : Option Name} {hd : Option Name × Name} {ds : Dataset}
    {A : List Nat → List Byte} {items : List PyItem} {ls : List (List Nat)}
    {sort : List GItem → List GItem} {rd : Dataset → ByteReader} {narrow : List Byte → List Byte}
    {sched : List Nat}
    (hfind : pyDataset g name group = some hd) (hds : pyHandle g hd = ok ds)
    (hwf : WF p ds) (had : AddrDet ds) (hio : io.file = some file) (hst' : Stores io.inflate file ds A)
    (hsz : Sizes file ds) (ht : ds.dtype = numpyType t) (hsw : Swaps hst t ∨ ds.order ≠ .LE)
    (ho : ds.order ≠ .Unknown)
    (hsort : ∀ l, SortedByAddr l (sort l))
    (hrd : ∀ ext dst, DirectReadToPar p io ds sort ext dst (rd ds ext dst))
    (hn : ∀ n ∈ ds.shape, n < 2 ^ 63) (hsel : numpySelect ds.shape items = some ls)
    (hne : ∀ l ∈ ls, l ≠ []) (h1 : PyItem.int (-1) ∉ items)
    (hg : Good p ds (firsts ls) (ls.map List.length))
    (hmem : (ls.map List.length).prod * ds.dsize < 2 ^ 63)
    (hnar : Narrows narrow)
    (hs : sched.Perm (List.range (combine ls).length)) :
    -- no fill value
    (∃ vs, (∀ junk, xrGetItem p narrow hst g rd junk sched name group none items =
          ok (t, squeezed (ls.map List.length), vs.flatten)) ∧
        List.Forall₂ (fun e v => v.length = t.size ∧ msFirst hst.native v = msFirst ds.order e)
          ((combine ls).map A) vs) ∧
    -- a fill value of a variable of floats
    (t.isFloat = true → ∀ f c, FloatOf narrow t f c →
      ∃ vs, (∀ junk, xrGetItem p narrow hst g rd junk sched name group (some f) items =
          ok (t, squeezed (ls.map List.length), vs.flatten)) ∧
        List.Forall₂ (fun e v => v.length = t.size ∧
          if FloatEq (msFirst ds.order e) c then floatVal (msFirst hst.native v) = .nan
          else msFirst hst.native v = msFirst ds.order e)
          ((combine ls).map A) vs) := by
  obtain ⟨vs, e1, e2⟩ := C39_partial hwf had hio hst' hsz ht hsw hsort hrd hn hsel hne h1 hg hmem
  unfold SameValues at e2
  simp only [if_neg ho] at e2
  have hdsz : t.size = ds.dsize := by
    rw [pyPrim_size (pyPrim_numpy ht)]
    have := hwf.built
    unfold Dataset.new at this
    obtain ⟨_, -, this⟩ := bind_eq_ok.1 this
    obtain ⟨_, -, this⟩ := bind_eq_ok.1 this
    obtain ⟨_, -, this⟩ := bind_eq_ok.1 this
    obtain ⟨_, -, this⟩ := bind_eq_ok.1 this
    obtain ⟨_, -, this⟩ := bind_eq_ok.1 this
    have := Outcome.ok.inj this
    rw [← this]
  have hel : ∀ e ∈ (combine ls).map A, e.length = t.size := by
    intro e hm
    obtain ⟨x, -, rfl⟩ := List.mem_map.1 hm
    rw [hst'.elem, hdsz]
  have e3 : List.Forall₂ (fun e v => v.length = t.size ∧ msFirst hst.native v = msFirst ds.order e)
      ((combine ls).map A) vs := by
    refine List.Forall₂.imp ?_ ((List.forall₂_and_left _ _).2 ⟨hel, e2⟩)
    rintro e v ⟨q0, q1, q2⟩
    exact ⟨q1.trans q0, q2⟩
  have hget : ∀ junk fill, xrGetItem p narrow hst g rd junk sched name group fill items =
      match fill with
      | none => ok (t, squeezed (ls.map List.length), vs.flatten)
      | some f => pyApplyFill narrow hst sched t f pyNan vs.flatten >>= fun b =>
          ok (t, squeezed (ls.map List.length), b) := by
    intro junk fill
    unfold xrGetItem
    rw [hfind]
    simp only [hds, ok_bind, e1 junk]
    cases fill <;> rfl
  refine ⟨⟨vs, fun junk => hget junk none, e3⟩, fun hfl f c hf => ?_⟩
  have hvl : vs.length = (combine ls).length := by rw [← e3.length_eq, List.length_map]
  have hv : ∀ v ∈ vs, v.length = t.size := fun v hv => by
    obtain ⟨e, -, h, -⟩ := forall₂_mem_right e3 hv
    exact h
  obtain ⟨nd, n1, n2, n3⟩ := pyNan_nan
  have hlen : ∀ {x : PyScalar} {c : List Byte}, FloatOf narrow t x c → c.length = t.size := by
    rintro x c ⟨d, -, hd, rfl⟩
    cases t <;> simp [Prim.isFloat] at hfl <;> simp [Prim.size, hd, (hnar d hd).1]
  have hnan : FloatOf narrow t pyNan (if t = .f32 then narrow nd else nd) := ⟨nd, n1, n2, rfl⟩
  have hisnan : floatVal (if t = .f32 then narrow nd else nd) = .nan := by
    split
    · exact (hnar nd n2).2 n3
    · exact n3
  obtain ⟨ws, k1, k2⟩ := C68_floats (h := hst) hfl hf hnan (hlen hf) (hlen hnan) vs hv (hvl ▸ hs)
  refine ⟨ws, fun junk => ?_, forall₂_get (e3.length_eq.trans k2.length_eq) fun i e w he hw => ?_⟩
  · rw [hget]
    show (pyApplyFill _ _ _ _ _ _ _ >>= _) = _
    rw [k1]
    rfl
  · obtain ⟨v, hv'⟩ : ∃ v, vs[i]? = some v := by
      have := (List.getElem?_eq_some_iff.1 hw).1
      exact ⟨_, List.getElem?_eq_getElem (by rw [k2.length_eq]; exact this)⟩
    obtain ⟨a1, a2⟩ := forall₂_at e3 he hv'
    obtain ⟨b1, b2⟩ := forall₂_at k2 hv' hw
    rw [a2] at b2
    refine ⟨b1, ?_⟩
    by_cases he : FloatEq (msFirst ds.order e) c
    · rw [if_pos he] at b2 ⊢; rw [b2]; exact hisnan
    · rw [if_neg he] at b2 ⊢; exact b2

/-- C61 fails: a variable of integers with a fill value can never be read, whatever the key, the file and
the fill value (xarray's own backend masks it): NaN is not an integer. -/
theorem not_C61 {p : Profile} {hst : Host} {t : Prim} {g : GroupIndex} {name : Name}
    {group : Option Name} {hd : Option Name × Name} {ds : Dataset} (rd : Dataset → ByteReader)
    (hfind : pyDataset g name group = some hd) (hds : pyHandle g hd = ok ds)
    (ht : ds.dtype = numpyType t) (hint : t.isFloat = false) (narrow : List Byte → List Byte)
    (junk : Nat → Byte) (sched : List Nat) (f : PyScalar) (items : List PyItem)
    (r : Prim × List Nat × List Byte) :
    xrGetItem p narrow hst g rd junk sched name group (some f) items ≠ ok r := by
  unfold xrGetItem
  rw [hfind]
  simp only [hds, ok_bind]
  intro h
  obtain ⟨⟨t', dims, bytes⟩, h1, h2⟩ := bind_eq_ok.1 h
  simp only at h2
  obtain ⟨b, h3, -⟩ := bind_eq_ok.1 h2
  have htt : t' = t := by
    unfold pyGetItem at h1
    obtain ⟨⟨i, c⟩, -, h1⟩ := bind_eq_ok.1 h1
    rw [pyPrim_numpy ht] at h1
    simp only [ok_bind] at h1
    obtain ⟨n, -, h1⟩ := bind_eq_ok.1 h1
    obtain ⟨e, -, h1⟩ := bind_eq_ok.1 h1
    obtain ⟨m, -, h1⟩ := bind_eq_ok.1 h1
    simp only [Outcome.ok.injEq, Prod.mk.injEq] at h1
    exact h1.1.symm
  subst htt
  unfold pyApplyFill at h3
  obtain ⟨c, -, h3⟩ := bind_eq_ok.1 h3
  obtain ⟨n, h4, -⟩ := bind_eq_ok.1 h3
  clear h h1 h2 h3 ht hds hfind
  cases t' <;> first | exact absurd hint (by decide) | (simp only [extractAs, pyNan] at h4; cases h4)

/-! ## C62 -/

/-- What `float(x)` gives is a double. -/
def IsScalar (x : PyScalar) : Prop := ∀ d, x.float = some d → d.length = 8

/-- A variable with attributes that are scalars. -/
def IsNcVar (v : NcVar) : Prop :=
  (∀ x, v.missing = some x → IsScalar x) ∧ ∀ x, v.fill = some x → IsScalar x

/-- Two scalars that are the same number. -/
def SameNumber (a b : PyScalar) : Prop :=
  match a.index, b.index with
  | some i, some j => i = j
  | _, _ => ∃ x y, a.float = some x ∧ b.float = some y ∧ FloatEq x y

theorem pyEq_iff {a b : PyScalar} (ha : IsScalar a) (hb : IsScalar b) :
    pyEq a b = true ↔ SameNumber a b := by
  have hf : (match a.float, b.float with
      | some x, some y => ieeeEq x y
      | _, _ => false) = true ↔ ∃ x y, a.float = some x ∧ b.float = some y ∧ FloatEq x y := by
    cases h1 : a.float with
    | none => simp
    | some x =>
      cases h2 : b.float with
      | none => simp
      | some y =>
        simp only [Option.some.injEq]
        rw [ieeeEq_iff (.inr (ha x h1)) ((ha x h1).trans (hb y h2).symm)]
        exact ⟨fun h => ⟨x, y, rfl, rfl, h⟩, by rintro ⟨_, _, rfl, rfl, h⟩; exact h⟩
  unfold pyEq SameNumber
  cases a.index with
  | none => exact hf
  | some i =>
    cases b.index with
    | none => exact hf
    | some j => simp

/-- What the attributes of a variable say about its fill value: the one that is there, or both if they are
the same number. -/
def FillOf (v : NcVar) (f : Option PyScalar) : Prop :=
  match v.missing, v.fill with
  | none, x => f = x
  | some m, none => f = some m
  | some m, some x => f = some x ∧ SameNumber m x

theorem xrFill_ok {v : NcVar} {f : Option PyScalar} (hv : IsNcVar v) :
    xrFill v.fill v.missing = ok f ↔ FillOf v f := by
  obtain ⟨hm, hx⟩ := hv
  unfold xrFill FillOf
  cases h1 : v.missing with
  | none => simp [eq_comm (a := f)]
  | some m => cases h2 : v.fill with
    | none => simp [eq_comm (a := f)]
    | some x =>
      simp only
      rw [← pyEq_iff (hm m h1) (hx x h2)]
      by_cases h : pyEq m x = true <;> simp [h, eq_comm (a := f)]

theorem xrVariables_ok {vars : Name → Option NcVar} (hv : ∀ k v, vars k = some v → IsNcVar v)
    {ks : List Name} {r : List (Name × Option PyScalar)} :
    xrVariables vars ks = ok r ↔
      List.Forall₂ (fun k e => e.1 = k ∧ ∃ v, vars k = some v ∧ FillOf v e.2) ks r := by
  induction ks generalizing r with
  | nil => simp [xrVariables, eq_comm (b := r)]
  | cons k ks ih =>
    constructor
    · intro h
      unfold xrVariables at h
      obtain ⟨v, h1, h⟩ := bind_eq_ok.1 h
      obtain ⟨f, h2, h⟩ := bind_eq_ok.1 h
      obtain ⟨s, h3, h⟩ := bind_eq_ok.1 h
      simp only [Outcome.ok.injEq] at h
      subst h
      have hk : vars k = some v := by cases hv : vars k <;> rw [hv] at h1 <;> simp_all
      exact .cons ⟨rfl, v, hk, (xrFill_ok (hv k v hk)).1 h2⟩ (ih.1 h3)
    · intro h
      cases h with
      | cons h1 h2 =>
        obtain ⟨rfl, v, h3, h4⟩ := h1
        unfold xrVariables
        rw [h3]
        simp only [ok_bind, (xrFill_ok (hv _ v h3)).2 h4, ih.2 h2]

/-- C62, exactly when a file can be opened and with which variables: if every dataset of the group is a
variable for netCDF4, with a `_FillValue` and a `missing_value` that do not contradict each other, the
variables are the datasets of the index, each once and in the order of the index, with the fill value of
the attributes; otherwise opening fails. -/
theorem C62_partial (g : GroupIndex) (group : Option Name) (vars : Name → Option NcVar)
    (hv : ∀ k v, vars k = some v → IsNcVar v) (r : List (Name × Option PyScalar)) :
    xrGetVariables g group vars = ok r ↔
      List.Forall₂ (fun k e => e.1 = k ∧ ∃ v, vars k = some v ∧ FillOf v e.2) (pyDatasets g group) r :=
  xrVariables_ok hv

/-- Every variable listed can be looked up again when it is read (names without slashes). -/
theorem C62_found {g : GroupIndex} {group : Option Name} {vars : Name → Option NcVar}
    (hv : ∀ k v, vars k = some v → IsNcVar v) {r : List (Name × Option PyScalar)} (h : xrGetVariables g group vars = ok r)
    {k : Name} {f : Option PyScalar} (hm : (k, f) ∈ r) (hs : Plain k) (hne : k ≠ []) :
    ∃ hd ds, pyDataset g k group = some hd ∧ pyHandle g hd = ok ds := by
  obtain ⟨k', hk, h1, -⟩ := forall₂_mem_right ((C62_partial g group vars hv r).1 h) hm
  simp only at h1
  subst h1
  obtain ⟨hd, h2⟩ := (C55_names hs hne).1 hk
  obtain ⟨x, h3, -⟩ := (C55 g k group).1 hd h2
  exact ⟨hd, x, h2, h3⟩

/-- A file with a dataset which is no netCDF variable (an HDF5 dataset that netCDF4 does not show) cannot be
opened at all. -/
theorem not_C62_unknown {g : GroupIndex} {group : Option Name} {vars : Name → Option NcVar} {k : Name}
    (hv : ∀ k v, vars k = some v → IsNcVar v) (hk : k ∈ pyDatasets g group) (hn : vars k = none) (r : List (Name × Option PyScalar)) :
    xrGetVariables g group vars ≠ ok r := by
  intro h
  have h := (C62_partial g group vars hv r).1 h
  obtain ⟨e, -, -, v, h1, -⟩ := forall₂_mem_right h.flip hk
  rw [hn] at h1
  simp at h1

/-- C62 fails: a file with one variable whose `_FillValue` and `missing_value` are both NaN, which is how
netCDF writers (and xarray itself) mark missing floats, cannot be opened at all: the assertion that
compares them fails, because NaN is not equal to itself. -/
theorem not_C62 {g : GroupIndex} {group : Option Name} {vars : Name → Option NcVar} {k : Name}
    (hv : ∀ k v, vars k = some v → IsNcVar v) (hk : k ∈ pyDatasets g group)
    (hn : vars k = some ⟨some pyNan, some pyNan⟩)
    (r : List (Name × Option PyScalar)) : xrGetVariables g group vars ≠ ok r := by
  intro h
  have h := (C62_partial g group vars hv r).1 h
  obtain ⟨e, -, -, v, h1, h2⟩ := forall₂_mem_right h.flip hk
  rw [hn, Option.some.injEq] at h1
  subst h1
  obtain ⟨-, x, y, h3, -, h4, -⟩ := h2
  obtain ⟨d, n1, -, n3⟩ := pyNan_nan
  rw [n1, Option.some.injEq] at h3
  exact h4 (h3 ▸ n3)

/-! ### A case that meets the hypotheses: three big-endian singles in one chunk, with a fill value -/

namespace XrDemo

/-- `1.0`, the default fill value of netCDF floats (`0x7cf00000`), `2.0`. -/
def A : List Nat → List Byte
  | [0] => [0x3f, 0x80, 0, 0]
  | [1] => [0x7c, 0xf0, 0, 0]
  | [2] => [0x40, 0, 0, 0]
  | _ => [0, 0, 0, 0]

def ds : Dataset :=
  { dtype := .float 4, dsize := 4, order := .BE, chunks := [⟨2, 12, [0]⟩],
    shape := [3], chunkShape := [3], chunkShapeReduced := [3], scaledDimSz := [1],
    dimSz := [1], chunkDimSz := [1], shuffle := false, gzip := none }

def file : List Byte := [9, 9, 0x3f, 0x80, 0, 0, 0x7c, 0xf0, 0, 0, 0x40, 0, 0, 0]

def io : Io := ⟨some file, fun _ => none⟩

def g : GroupIndex := .mk none [([116], ds)] []

/-- The fill value as a Python scalar: the double `0x479e000000000000`. -/
def fill : PyScalar := ⟨none, some [0x47, 0x9e, 0, 0, 0, 0, 0, 0]⟩

/-- Narrowing of the doubles that occur. -/
def narrow (d : List Byte) : List Byte :=
  if floatVal d = .nan then [0x7f, 0xc0, 0, 0] else [0x7c, 0xf0, 0, 0]

theorem narrows : Narrows narrow := by
  intro d _
  unfold narrow
  split
  · exact ⟨rfl, fun _ => by decide +kernel⟩
  · exact ⟨rfl, fun h => absurd h (by assumption)⟩

theorem stores : Stores io.inflate file ds A where
  elem x := by unfold A; split <;> rfl
  chunk c hc := by
    simp only [ds, List.mem_cons, List.not_mem_nil, or_false] at hc
    subst hc
    refine ⟨by decide, _, ?_, rfl, ?_⟩
    · rfl
    · intro x hx hy k hk
      match x, hx with
      | [a], hx =>
        simp only [InBox, ds] at hx
        have : a = 0 ∨ a = 1 ∨ a = 2 := by simp at hx; omega
        rcases this with rfl | rfl | rfl <;> subst hk <;> decide
      | [], hx => simp [InBox, ds] at hx
      | _ :: _ :: _, hx => simp [InBox, ds] at hx

theorem wf (p : Profile) : WF p ds where
  rank := rfl
  built := by cases p <;> rfl
  grid := by decide
  pos := by decide
  fits := ⟨by decide, by decide, by decide, by decide⟩

/-- `t[0:3]` through the backend: `1.0, NaN, 2.0` as little-endian singles, for every schedule. -/
example (p : Profile) (rd : Dataset → ByteReader) (sort : List GItem → List GItem)
    (hsort : ∀ l, SortedByAddr l (sort l))
    (hrd : ∀ ext dst, DirectReadToPar p io ds sort ext dst (rd ds ext dst)) (junk : Nat → Byte) :
    ∃ b, floatVal (msFirst .LE b) = .nan ∧ b.length = 4 ∧
    xrGetItem p narrow .little g rd junk [2, 0, 1] [116] none (some fill) [.slice (some 0) (some 3) none] =
      ok (.f32, [3], [0, 0, 0x80, 0x3f] ++ b ++ [0, 0, 0, 0x40]) := by
  obtain ⟨-, h⟩ := C61_partial (p := p) (hst := .little) (t := .f32) (io := io) (file := file) (g := g)
    (name := [116]) (group := none) (hd := (none, [116])) (ds := ds) (A := A)
    (items := [.slice (some 0) (some 3) none]) (ls := [[0, 1, 2]]) (sort := sort) (rd := rd)
    (narrow := narrow) (sched := [2, 0, 1])
    rfl rfl (wf p) (by unfold AddrDet; decide) rfl stores ⟨by decide, by decide, by decide, by decide⟩ rfl
    (.inl (.inl rfl)) (by decide) hsort hrd (by decide) (by decide) (by decide) (by decide)
    (by unfold Good; cases p <;> decide) (by decide) narrows (by decide)
  obtain ⟨vs, h1, h2⟩ := h rfl fill [0x7c, 0xf0, 0, 0] ⟨_, rfl, rfl, by decide +kernel⟩
  rw [h1]
  match vs, h2 with
  | [a, b, c], .cons ⟨_, ha⟩ (.cons ⟨hbl, hb⟩ (.cons ⟨_, hc⟩ .nil)) =>
    rw [if_neg (by decide +kernel)] at ha hc
    rw [if_pos (by decide +kernel)] at hb
    have ra : a = [0, 0, 0x80, 0x3f] := by
      have := congrArg (msFirst .LE) ha
      rw [show Host.little.native = .LE from rfl, msFirst_twice] at this
      rw [this]; decide +kernel
    have rc : c = [0, 0, 0, 0x40] := by
      have := congrArg (msFirst .LE) hc
      rw [show Host.little.native = .LE from rfl, msFirst_twice] at this
      rw [this]; decide +kernel
    subst ra rc
    exact ⟨b, hb, hbl, by simp; rfl⟩

/-- Opening the file: the variable with its fill value. -/
example : xrGetVariables g none (fun k => if k = [116] then some ⟨some fill, some fill⟩ else none) =
    ok [([116], some fill)] := by decide +kernel

end XrDemo

end Hidefix.Props
