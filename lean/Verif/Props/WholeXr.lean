import Verif.Props.XrOpen
import Verif.Props.Open

/-!
# Property C96: from the HDF5 file through the xarray backend to the numbers
-/

namespace Hidefix.Props
open Hidefix Hidefix.Spec Hidefix.Proofs Outcome

/-- The index of a dataset that can be read is what the properties of the readers start from. -/
theorem readable_index {p : Profile} {inflate : List Byte → Option (List Byte)} {file : List Byte} {h : H5Dataset}
    {t : H5Type} {A : List Nat → List Byte} {ds : Dataset} (hr : H5Readable inflate file h t A)
    (hi : DatasetD.index p h = ok ds) :
    WF p ds ∧ AddrDet ds ∧ Stores inflate file ds A ∧ Sizes file ds ∧ ds.dtype = Datatype.ofH5 t ∧
      ds.order = ByteOrder.ofH5 t.order ∧ ds.shape = h.shape ∧ ds.chunkShape = chunkShapeOf h ∧ ds.dsize = t.size := by
  have hds' : Dataset.index p h.shape.length h = ok ds := by
    unfold DatasetD.index at hi
    split at hi
    · exact hi
    · simp at hi
  obtain ⟨s1, s2, s3, s4, s5⟩ := stores_of_index hds' hr.cells hr.fits hr.dtype hr.filters hr.masks hr.stores
  have hnew : ds.dtype = Datatype.ofH5 t ∧ ds.order = ByteOrder.ofH5 t.order := by
    obtain ⟨-, _, _, t', _, _, -, ht', -, -, -, -, -, h8⟩ := index_inv hds'
    rw [hr.dtype] at ht'
    obtain rfl := Outcome.ok.inj ht'
    exact ⟨(new_fields h8).1, (new_fields h8).2.1⟩
  refine ⟨C34_wf hds' hr.cells hr.fits, ?_, s1, ?_, hnew.1, hnew.2, s3, s4, s2⟩
  · intro c hc c' hc' he
    obtain ⟨m, hm⟩ := (s5 c).1 hc
    obtain ⟨m', hm'⟩ := (s5 c').1 hc'
    exact hr.addrs c c' m m' hm hm' he
  · have hsz := hr.sizes
    refine ⟨⟨?_, ?_, ?_⟩, ?_, hsz.file, ?_⟩
    · rw [s2]; exact hsz.elem.1
    · rw [s2]; exact hsz.elem.2.1
    · rw [s2]
      intro hs
      exact hsz.elem.2.2 ((C47 hds').2.2.2.1.1 hs)
    · rw [s2, s4]; exact hsz.chunk
    · rw [s2, s3]; exact hsz.data

/-- The type of the dataset is the number type `u` of the host. -/
def IsNumber (hst : Host) (u : Prim) (t : H5Type) : Prop :=
  t.size = u.size ∧ (∀ u', t.isNative u' = true ↔ u' = u) ∧
    t.order = (match hst with | .little => .littleEndian | .big => .bigEndian)

theorem msFirst_native {hst : Host} {a b : List Byte} (h : msFirst hst.native a = msFirst hst.native b) : a = b := by
  cases hst
  · exact List.reverse_injective h
  · exact h

/-- C96: a file is opened with the xarray backend, at the root or in a group. Every allocated dataset of the group
whose file stores the array `A` of native numbers is a variable, with the fill value its attributes give, and
indexing that variable gives, for every selected coordinate in numpy's order, the number stored there; the ones equal
to the fill value are replaced by NaN, if the numbers are floats, and if they are integers the variable cannot be
read. Restricted as C53 and C61: the usual filters, ints other than -1, slices of step 1 that select something,
selections that are `good`; the shape is squeezed. -/
theorem C96_partial {p : Profile} {hst : Host} {u : Prim} {inflate : List Byte → Option (List Byte)} {file : List Byte}
    {path : Name} {f : H5Links} {root fuel : Nat} {nc : NcAnswers} {group : Option Name} {names : List Name} {k : Name}
    {n : Nat} {h5 : H5Dataset} {t : H5Type} {A : List Nat → List Byte} {vars : Name → Option NcVar} {idx : Index}
    {r : List (Name × Option PyScalar)} {items : List PyItem} {ls : List (List Nat)}
    {sort : List GItem → List GItem} {rd : Dataset → ByteReader} {narrow : List Byte → List Byte} {sched : List Nat}
    (hN : Named f root) (hg : GroupArg group names) (hnc : nc group = some vars)
    (hv : ∀ k v, vars k = some v → IsNcVar v)
    (hopen : xrOpen p path f (some root) nc group fuel = ok (idx, r))
    (hk : Plain k ∧ k ≠ []) (hl : Leads f root names n) (ho : Opens f n k h5) (ha : HasStorage h5)
    (hr : H5Readable inflate file h5 t A) (ht : IsNumber hst u t)
    (hsort : ∀ l, SortedByAddr l (sort l))
    (hrd : ∀ ds, DatasetD.index p h5 = ok ds → ∀ ext dst,
      DirectReadToPar p ⟨some file, inflate⟩ ds sort ext dst (rd ds ext dst))
    (hn : ∀ d ∈ h5.shape, d < 2 ^ 63) (hsel : numpySelect h5.shape items = some ls)
    (hne : ∀ l ∈ ls, l ≠ []) (h1 : PyItem.int (-1) ∉ items)
    (hgood : good p (dimsOf (firsts ls) (ls.map List.length) (chunkShapeOf h5) h5.shape) = true)
    (hmem : (ls.map List.length).prod * u.size < 2 ^ 63) (hnar : Narrows narrow)
    (hs : sched.Perm (List.range (combine ls).length)) :
    ∃ fl v, (k, fl) ∈ r ∧ vars k = some v ∧ FillOf v fl ∧
      (fl = none → ∀ junk, xrGetItem p narrow hst idx.root rd junk sched k group fl items =
        ok (u, squeezed (ls.map List.length), (combine ls).flatMap A)) ∧
      (∀ s c, fl = some s → u.isFloat = true → FloatOf narrow u s c →
        ∃ vs, (∀ junk, xrGetItem p narrow hst idx.root rd junk sched k group fl items =
            ok (u, squeezed (ls.map List.length), vs.flatten)) ∧
          List.Forall₂ (fun x v => v.length = u.size ∧
            if FloatEq (msFirst hst.native (A x)) c then floatVal (msFirst hst.native v) = .nan else v = A x)
            (combine ls) vs) ∧
      (∀ s, fl = some s → u.isFloat = false → ∀ junk res,
        xrGetItem p narrow hst idx.root rd junk sched k group fl items ≠ ok res) := by
  obtain ⟨-, h2, h3, h4⟩ := C95_shown hN hg hnc hv hopen
  obtain ⟨⟨k', fl⟩, he, rfl⟩ := List.mem_map.1 ((h2 k).2 ⟨n, h5, hl, ho, ha⟩)
  obtain ⟨v, hvk, hfl⟩ := h3 k' fl he
  obtain ⟨hd, ds, hfind, hds, hi⟩ := h4 k' n h5 hk.1 hk.2 hl ho ha
  obtain ⟨hwf, had, hst', hsz, e1, e2, e3, e4, e5⟩ := readable_index hr hi
  obtain ⟨t1, t2, t3⟩ := ht
  have hord : ds.order = hst.native := by
    rw [e2, t3]; cases hst <;> rfl
  have hty : ds.dtype = numpyType u := by
    rw [e1, (C52_partial t).1 u t2 t1]
    cases u <;> rfl
  have hsw : Swaps hst u ∨ ds.order ≠ .LE := by
    rw [hord]
    cases hst
    · exact .inl (.inl rfl)
    · exact .inr (by simp [Host.native])
  obtain ⟨c1, c2⟩ := C61_partial (io := ⟨some file, inflate⟩) (items := items) (ls := ls) (sched := sched) hfind hds hwf
    had rfl hst' hsz hty hsw (by rw [hord]; cases hst <;> simp [Host.native]) hsort (hrd ds hi) (by rw [e3]; exact hn)
    (by rw [e3]; exact hsel) hne h1 (by unfold Good; rw [e3, e4]; exact hgood) (by rw [e5, t1]; exact hmem) hnar hs
  refine ⟨fl, v, he, hvk, hfl, ?_, ?_, ?_⟩
  · rintro rfl
    obtain ⟨vs, a, b⟩ := c1
    intro junk
    rw [a junk]
    have : vs = (combine ls).map A := by
      rw [hord] at b
      clear a
      generalize (combine ls).map A = l at b
      induction b with
      | nil => rfl
      | cons hx _ ih => rw [ih, msFirst_native hx.2]
    rw [this, List.flatMap_def]
  · rintro s c rfl hf hc
    obtain ⟨vs, a, b⟩ := c2 hf s c hc
    refine ⟨vs, a, ?_⟩
    rw [List.forall₂_map_left_iff, hord] at b
    refine b.imp fun x w hw => ⟨hw.1, ?_⟩
    have := hw.2
    split at this
    · rename_i h; rw [if_pos h]; exact this
    · rename_i h; rw [if_neg h]; exact msFirst_native this
  · rintro s rfl hf junk res
    exact not_C61 rd hfind hds hty hf narrow junk sched s items res

/-- Not C96 as one would like it: a variable of another type than the numbers of the host, such as numbers in the other
byte order, is shown, but can never be read. -/
theorem C96_foreign {p : Profile} {hst : Host} {path : Name} {f : H5Links} {root fuel : Nat} {nc : NcAnswers}
    {group : Option Name} {names : List Name} {k : Name} {n : Nat} {h5 : H5Dataset} {t : H5Type}
    {vars : Name → Option NcVar} {idx : Index} {r : List (Name × Option PyScalar)}
    (hN : Named f root) (hg : GroupArg group names) (hnc : nc group = some vars)
    (hv : ∀ k v, vars k = some v → IsNcVar v)
    (hopen : xrOpen p path f (some root) nc group fuel = ok (idx, r))
    (hk : Plain k ∧ k ≠ []) (hl : Leads f root names n) (ho : Opens f n k h5) (ha : HasStorage h5)
    (ht : h5.dtype = ok t) (hno : ∀ u, t.isNative u = false)
    (rd : Dataset → ByteReader) (narrow : List Byte → List Byte) (junk : Nat → Byte) (sched : List Nat)
    (fl : Option PyScalar) (items : List PyItem) (res : Prim × List Nat × List Byte) :
    k ∈ r.map Prod.fst ∧ xrGetItem p narrow hst idx.root rd junk sched k group fl items ≠ ok res := by
  obtain ⟨-, h2, -, h4⟩ := C95_shown hN hg hnc hv hopen
  refine ⟨(h2 k).2 ⟨n, h5, hl, ho, ha⟩, ?_⟩
  obtain ⟨hd, ds, hfind, hds, hi⟩ := h4 k n h5 hk.1 hk.2 hl ho ha
  have hds' : Dataset.index p h5.shape.length h5 = ok ds := by
    unfold DatasetD.index at hi
    split at hi
    · exact hi
    · simp at hi
  have hty : ds.dtype = .custom t.size := by
    obtain ⟨-, _, _, t', _, _, -, ht', -, -, -, -, -, h8⟩ := index_inv hds'
    rw [ht] at ht'
    obtain rfl := Outcome.ok.inj ht'
    rw [(new_fields h8).1]
    exact (C52_partial t).2.1 hno
  intro h
  unfold xrGetItem at h
  simp only [hfind] at h
  obtain ⟨ds', h1, h⟩ := bind_eq_ok.1 h
  rw [hds] at h1
  cases h1
  obtain ⟨x, h1, -⟩ := bind_eq_ok.1 h
  unfold pyGetItem at h1
  obtain ⟨⟨a, b⟩, -, h1⟩ := bind_eq_ok.1 h1
  obtain ⟨u, hu, -⟩ := bind_eq_ok.1 h1
  rw [hty] at hu
  simp [pyPrim] at hu

/-! ## Example -/

/-- netCDF4 shows `x` and `y` in every group, without attributes. -/
def plainNc : NcAnswers := fun _ => some fun k => if k = [120] ∨ k = [121] then some ⟨none, none⟩ else none

theorem plainNc_ok (group : Option Name) : ∀ vars k v, plainNc group = some vars → vars k = some v → IsNcVar v := by
  intro vars k v h hk
  cases h
  simp only at hk
  split at hk
  · cases hk
    exact ⟨fun x hx => by simp at hx, fun x hx => by simp at hx⟩
  · cases hk

/-- The demo file, with a shuffled and compressed dataset in a group, is opened in that group, and `x[1:3, 1:]` is
read. -/
example (p : Profile) (path : Name) (rd : Dataset → ByteReader) (sort : List GItem → List GItem)
    (hsort : ∀ l, SortedByAddr l (sort l))
    (hrd : ∀ ds ext dst, DirectReadToPar p ⟨some Demo.file, Demo.inflate⟩ ds sort ext dst (rd ds ext dst)) :
    ∃ fuel idx r, xrOpen p path demoLinks (some 0) plainNc (some [47, 97]) fuel = ok (idx, r) ∧ ([120], none) ∈ r ∧
      ∀ junk, xrGetItem p XrDemo.narrow .little idx.root rd junk [5, 3, 4, 0, 2, 1] [120] (some [47, 97]) none
        [.slice (some 1) (some 3) none, .slice (some 1) none none] =
      ok (.u16, [2, 3], [[1, 1], [1, 2], [1, 3], [2, 1], [2, 2], [2, 3]].flatMap Demo.A) := by
  have hg : GroupArg (some [47, 97]) [[97]] :=
    GroupArg.path (names := [[97]]) 1 0 (by simp) (by simp only [Plain]; decide)
  obtain ⟨fuel, ⟨idx, r⟩, h⟩ := (C95_opens (p := p) (path := path) demo_named hg (plainNc_ok _)).2
    ⟨demo_ends, demo_indexable p, _, rfl, fun k hk => ⟨⟨none, none⟩, none, if_pos (demo_has hk), rfl⟩⟩
  have hl : Leads demoLinks 0 [[97]] 1 := .down ⟨_, _, rfl, List.mem_singleton.2 rfl,
    ⟨by simp only [Plain]; decide, .inr ⟨[], rfl⟩⟩⟩ (.here 1)
  obtain ⟨fl, v, h1, h2, h3, h4, -, -⟩ := C96_partial (u := .u16) (items := [.slice (some 1) (some 3) none,
      .slice (some 1) none none]) (ls := [[1, 2], [1, 2, 3]]) (sched := [5, 3, 4, 0, 2, 1]) (hst := .little)
    (narrow := XrDemo.narrow) (k := [120]) demo_named hg rfl (fun k v => plainNc_ok none _ k v rfl) h
    ⟨by simp only [Plain]; decide, by simp⟩ hl ⟨_, rfl, List.mem_singleton.2 rfl⟩ (.inl rfl) demoH5_readable
    ⟨rfl, fun u' => by cases u' <;> decide, rfl⟩ hsort (fun ds _ => hrd ds) (by decide) (by decide) (by decide) (by decide)
    (by cases p <;> decide) (by decide) XrDemo.narrows (by decide)
  have hfl : fl = none := by
    rw [if_pos (.inl rfl)] at h2
    cases h2
    exact h3
  subst hfl
  exact ⟨fuel, idx, r, h, h1, h4 rfl⟩

end Hidefix.Props
