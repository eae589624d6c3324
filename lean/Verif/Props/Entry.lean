import Verif.Model.Entry
import Verif.Props.Open
import Verif.Props.Slicing
import Verif.Props.Python

/-!
# Properties C72, C73 and the Python part of C50
-/

set_option autoImplicit false

namespace Hidefix.Props
open Hidefix Hidefix.Spec Hidefix.Proofs Outcome

/-! ## C72 -/

/-- A path from the root of the file system. -/
def IsAbsolute (path : Name) : Prop := path.head? = some sep

/-- C72: the path itself, a file opened at it with the HDF5 library, and one opened with the netCDF library
give the same index. -/
theorem C72_same {p : Profile} {h5 : Name → Option H5Group} {path : Name} {root : H5Group}
    (h : h5 path = some root) :
    Index.tryFromPath p h5 path = Index.indexFile p (some path) root ∧
    Index.tryFromH5 p ⟨path, root⟩ = Index.indexFile p (some path) root ∧
    Index.tryFromNetcdf p h5 ⟨path⟩ = Index.indexFile p (some path) root := by
  unfold Index.tryFromPath Index.tryFromH5 Index.tryFromNetcdf Index.index
  rw [h]
  exact ⟨rfl, rfl, rfl⟩

/-- What the readers of an index open, exactly: the file that its path names when the reader is opened (a
stream or parallel reader: when it is read), for the root group and all groups below. -/
theorem C72_opens {p : Profile} {os : Os} {path : Name} {root : H5Group} {idx : Index}
    (hw : WellNamed root) (hi : Index.indexFile p (some path) root = ok idx) {names : List Name}
    {g : GroupIndex} (hg : Follows idx.root names g) (s : Name) :
    (∀ r, g.reader p os.fs s = ok r → os.fs path = some r.file) ∧
    ∀ r, g.streamer p s = ok r → r.path = path := by
  have hp := (C38_groups hw hi names).2 g hg
  constructor
  · intro r hr
    obtain ⟨q, h1, -, h2, -⟩ := C56.2.2.2.1 r hr
    obtain rfl := Option.some.inj (hp.symm.trans h1)
    exact h2
  · intro r hr
    have h1 := (C56 (fs := os.fs) (g := g) (s := s)).2.2.2.2 r hr
    exact (Option.some.inj (hp.symm.trans h1.1)).symm

/-- C72 for absolute paths: the process may change its working directory at any time; a reader of any group
of the index reads the file that was indexed, and so does a stream or parallel reader. Missing: relative
paths (`not_C72`). -/
theorem C72_partial {p : Profile} {os os' : Os} {parse : List Byte → Option H5Group} {path : Name}
    {root : H5Group} {idx : Index} {file : List Byte} (habs : IsAbsolute path) (hfile : os.fs path = some file)
    (hparse : parse file = some root) (hw : WellNamed root)
    (hi : Index.index p (os.h5 parse) path = ok idx) (hsame : os'.files = os.files) {names : List Name}
    {g : GroupIndex} (hg : Follows idx.root names g) (s : Name) :
    (∀ r, g.reader p os'.fs s = ok r → r.file = file) ∧
    (g.reader p os'.fs s = g.reader p os.fs s) ∧
    ∀ r, g.streamer p s = ok r → os'.fs r.path = some file := by
  have h5 : os.h5 parse path = some root := by unfold Os.h5; rw [hfile]; exact hparse
  have hi' : Index.indexFile p (some path) root = ok idx := by
    unfold Index.index at hi; rw [h5] at hi; exact hi
  have hs : slash = sep := by decide
  have hfs : os'.fs path = os.fs path := by
    unfold IsAbsolute at habs
    unfold Os.fs
    rw [hs, if_pos habs, if_pos habs, hsame]
  refine ⟨fun r hr => ?_, ?_, fun r hr => ?_⟩
  · have := (C72_opens (os := os') hw hi' hg s).1 r hr
    rw [hfs, hfile] at this
    exact (Option.some.inj this).symm
  · unfold GroupIndex.reader Dataset.asReader
    rw [(C38_groups hw hi' names).2 g hg]
    simp only [hfs]
  · rw [(C72_opens (os := os') hw hi' hg s).2 r hr, hfs, hfile]

/-- The demo file in the directory `/a`, and some other file of the same name in `/b`. -/
def twoDirs (cwd : Name) : Os :=
  ⟨cwd, fun q => if q = [47, 97, 47, 102] then some Demo.file
    else if q = [47, 98, 47, 102] then some (List.replicate 40 0) else none⟩

theorem demo_indexes (p : Profile) (path : Name) :
    ∃ idx, Index.indexFile p (some path) demoRoot = ok idx :=
  C38_succeeds demoRoot_wellNamed fun names d h hd ha => by
    rw [demoRoot_only hd ha]
    obtain ⟨ds, h1, -⟩ := C34_complete (p := p) (h := demoH5) rfl rfl rfl rfl (by decide) (by decide)
      ⟨by decide, by decide, by decide, by decide⟩ rfl (by simp [demoH5]) rfl rfl (by decide)
    exact ⟨ds, h1⟩

example (p : Profile) : ∃ idx, Index.index p ((twoDirs [47, 97]).h5 fun _ => some demoRoot) [47, 97, 47, 102] = ok idx ∧
    ∀ s r, idx.root.reader p (twoDirs [47, 98]).fs s = ok r → r.file = Demo.file := by
  obtain ⟨idx, hi⟩ := demo_indexes p [47, 97, 47, 102]
  exact ⟨idx, hi, fun s r hr => (C72_partial (os := twoDirs [47, 97]) (os' := twoDirs [47, 98]) (path := [47, 97, 47, 102]) (parse := fun _ => some demoRoot)
    (by unfold IsAbsolute; decide) rfl rfl demoRoot_wellNamed hi rfl (.here _) s).1 r hr⟩

/-- C72 is false for relative paths: an index of `f`, made in `/a`, used in `/b`, reads another file, without
any error. -/
theorem not_C72 (p : Profile) : ∃ (os os' : Os) (parse : List Byte → Option H5Group) (path s : Name)
    (file : List Byte) (idx : Index) (r : OpenReader), os'.files = os.files ∧ os.fs path = some file ∧
    Index.index p (os.h5 parse) path = ok idx ∧ idx.root.reader p os'.fs s = ok r ∧ r.file ≠ file := by
  obtain ⟨idx, hi⟩ := demo_indexes p [102]
  obtain ⟨ds, hds⟩ : ∃ ds, DatasetD.index p demoH5 = ok ds := by
    by_contra hno
    exact C38_fails demoRoot_wellNamed demoRoot_has.1 demoRoot_has.2 (fun x hx => hno ⟨x, hx⟩) idx hi
  have hres : idx.root.dataset [97, 47, 98, 47, 120] = some ds :=
    (C38 demoRoot_wellNamed hi (names := [[97], [98]]) (d := [120]) 0
      (by simp only [Plain]; decide) ds).2 ⟨demoH5, demoRoot_has.1, demoRoot_has.2, hds⟩
  have hr := demoH5_readable
  obtain ⟨-, s2, -, s4, -⟩ := stores_of_index (p := p) (D := 2) (h := demoH5) hds hr.cells hr.fits hr.dtype
    hr.filters hr.masks hr.stores
  obtain ⟨rd, hrd⟩ := (C56_opens (p := p) (fs := (twoDirs [47, 98]).fs)
    ((C38_groups demoRoot_wellNamed hi []).2 _ (.here _)) hres (by rw [s4, s2]; decide)
    (by rw [s4, s2]; decide)).1 (List.replicate 40 0) rfl
  exact ⟨twoDirs [47, 97], twoDirs [47, 98], fun _ => some demoRoot, [102], _, Demo.file, idx, _, rfl, rfl, hi,
    hrd, by show List.replicate 40 0 ≠ Demo.file; decide⟩

/-! ## C73 -/

/-- The bytes of an ASCII string. -/
def ascii (s : String) : Name := s.toList.map Char.toUInt8

/-- A file name with a suffix: directories, a name that is not made of dots alone, the suffix. -/
def HasSuffix (path suffix : Name) : Prop :=
  ∃ dir stem, path = dir ++ stem ++ suffix ∧ (dir = [] ∨ dir.getLast? = some sep) ∧ Plain stem ∧
    ∃ b ∈ stem, b ≠ '.'.toUInt8

theorem rfind_none {c : Byte} {s : Name} : rfind c s = none ↔ c ∉ s := by
  induction s with
  | nil => simp [rfind]
  | cons b s ih =>
    unfold rfind
    cases h : rfind c s with
    | some i =>
      have : c ∈ s := by by_contra hc; rw [ih.2 hc] at h; simp at h
      simp [this]
    | none =>
      have := ih.1 h
      by_cases hb : b = c
      · simp [hb]
      · simp [hb, this, Ne.symm hb]

theorem rfind_some {c : Byte} {s : Name} {i : Nat} :
    rfind c s = some i ↔ s[i]? = some c ∧ c ∉ s.drop (i + 1) := by
  induction s generalizing i with
  | nil => simp [rfind]
  | cons b s ih =>
    unfold rfind
    cases h : rfind c s with
    | some k =>
      obtain ⟨h1, h2⟩ := ih.1 h
      constructor
      · intro he
        obtain rfl := Option.some.inj he
        simpa using ⟨h1, h2⟩
      · rintro ⟨h3, h4⟩
        cases i with
        | zero =>
          exact absurd (List.mem_of_getElem? h1) (by simpa using h4)
        | succ i => rw [ih.2 ⟨by simpa using h3, by simpa using h4⟩] at h; simpa using h.symm
    | none =>
      have hn := rfind_none.1 h
      cases i with
      | zero => by_cases hb : b = c <;> simp [hb, hn]
      | succ i =>
        have : s[i]? ≠ some c := fun hc => hn (List.mem_of_getElem? hc)
        by_cases hb : b = c <;> simp [hb, this]

/-- The suffix `splitext` finds. -/
theorem splitext_eq {path e : Name} (he : ∃ t, e = '.'.toUInt8 :: t ∧ '.'.toUInt8 ∉ t ∧ sep ∉ t) :
    splitext path = e ↔ HasSuffix path e := by
  obtain ⟨t, rfl, ht1, ht2⟩ := he
  have hdot : '.'.toUInt8 = dot := by decide
  have hsep : sep = slash := by decide
  rw [hdot] at ht1 ⊢
  rw [hsep] at ht2
  have hds : slash ≠ dot := by decide
  unfold HasSuffix Plain
  rw [hdot, hsep]
  have hno : ∀ {stem : Name}, slash ∉ stem → slash ∉ stem ++ dot :: t := fun h hm => by
    rcases List.mem_append.1 hm with h' | h'
    · exact h h'
    · rcases List.mem_cons.1 h' with h' | h'
      · exact hds h'
      · exact ht2 h'
  unfold splitext
  constructor
  · intro h
    cases hd : rfind dot path with
    | none => rw [hd] at h; simp at h
    | some d =>
      rw [hd] at h
      simp only at h
      obtain ⟨d1, d2⟩ := rfind_some.1 hd
      generalize hf : nameStart path = f at h
      unfold nameStart at hf
      split at h
      · rename_i hc
        refine ⟨path.take f, (path.take d).drop f, ?_, ?_, ?_, ?_⟩
        · have hmin : (path.take d).take f = path.take f := by
            rw [List.take_take, Nat.min_eq_left hc.1]
          rw [← h, ← hmin, List.take_append_drop, List.take_append_drop]
        · cases hs : rfind slash path with
          | none => rw [hs] at hf; left; simp [← hf]
          | some k =>
            rw [hs] at hf
            right
            simp only at hf
            obtain ⟨k1, -⟩ := rfind_some.1 hs
            rw [← hf, List.getLast?_eq_getElem?, List.length_take]
            have hk : k < path.length := (List.getElem?_eq_some_iff.1 k1).1
            rw [Nat.min_eq_left (by omega), List.getElem?_take, if_pos (by omega)]
            simpa using k1
        · intro hm
          have hm' : slash ∈ path.drop f := by
            rw [List.drop_take] at hm; exact List.mem_of_mem_take hm
          cases hs : rfind slash path with
          | none => exact rfind_none.1 hs (List.mem_of_mem_drop hm')
          | some k => rw [hs] at hf; subst hf; exact (rfind_some.1 hs).2 hm'
        · simpa using hc.2
      · simp at h
  · rintro ⟨dir, stem, rfl, hdir, hplain, b, hb, hne⟩
    have hd : rfind dot (dir ++ stem ++ dot :: t) = some (dir ++ stem).length :=
      rfind_some.2 ⟨by rw [List.getElem?_append_right (Nat.le_refl _)]; simp,
        by
          have : (dir ++ stem ++ dot :: t).drop ((dir ++ stem).length + 1) = t := by
            rw [List.append_cons, List.drop_left' (by simp; omega)]
          rw [this]; exact ht1⟩
    rw [hd]
    simp only
    have hf : nameStart (dir ++ stem ++ dot :: t) = dir.length := by
      unfold nameStart
      rcases hdir with rfl | hdir
      · have : rfind slash ([] ++ stem ++ dot :: t) = none := rfind_none.2 (hno hplain)
        rw [this]; rfl
      · obtain ⟨d', rfl⟩ := List.getLast?_eq_some_iff.1 hdir
        have : rfind slash (d' ++ [slash] ++ stem ++ dot :: t) = some d'.length :=
          rfind_some.2 ⟨by simp, by
            have : (d' ++ [slash] ++ stem ++ dot :: t).drop (d'.length + 1) = stem ++ dot :: t := by
              rw [List.append_assoc (d' ++ [slash]), List.drop_left' (by simp)]
            rw [this]; exact hno hplain⟩
        rw [this]; simp
    rw [hf, if_pos]
    · simp
    · refine ⟨by simp, ?_⟩
      have : (List.take (dir ++ stem).length (dir ++ stem ++ dot :: t)).drop dir.length = stem := by
        rw [List.take_left' rfl, List.drop_left' rfl]
      rw [this]
      simp only [List.any_eq_true, bne_iff_ne]
      exact ⟨b, hb, hne⟩

/-- C73: xarray is told that a file can be opened exactly if its name has one of the suffixes `.nc`, `.nc4`
and `.cdf` (in lower case, after a name that is not made of dots alone). -/
theorem C73 (path : Name) : guessCanOpen path = true ↔
    HasSuffix path (ascii ".nc") ∨ HasSuffix path (ascii ".nc4") ∨ HasSuffix path (ascii ".cdf") := by
  rw [← splitext_eq (e := ascii ".nc") ⟨ascii "nc", by decide, by decide, by decide⟩,
    ← splitext_eq (e := ascii ".nc4") ⟨ascii "nc4", by decide, by decide, by decide⟩,
    ← splitext_eq (e := ascii ".cdf") ⟨ascii "cdf", by decide, by decide, by decide⟩]
  have h1 : ascii ".nc" = [46, 110, 99] := by decide
  have h2 : ascii ".nc4" = [46, 110, 99, 52] := by decide
  have h3 : ascii ".cdf" = [46, 99, 100, 102] := by decide
  unfold guessCanOpen
  rw [h1, h2, h3]
  simp

example : guessCanOpen (ascii "/data/v1.2/coads.nc4") = true :=
  (C73 _).2 (.inr (.inl ⟨ascii "/data/v1.2/", ascii "coads", by decide, by decide, by unfold Plain; decide,
    by decide⟩))

example : guessCanOpen (ascii "/data.nc/.nc") = false ∧ guessCanOpen (ascii "a.h5") = false := by decide

/-! ## C50 in Python -/

/-- C50 in Python: `len(ds)` is the number of elements, `ds.shape()` and `ds.chunk_shape()` are those of the
dataset that the name resolves to; a handle never fails to resolve. From 2^63 elements on `len` raises an
exception, up to 2^64 (`sys.maxsize`). -/
theorem C50_python {p : Profile} {g : GroupIndex} {s : Name} {ds : Dataset} {hd : Option Name × Name}
    (hh : pyDataset g s none = some hd) (hds : g.dataset s = some ds) (hpos : ∀ x ∈ ds.shape, 0 < x) :
    (ds.shape.prod < 2 ^ 63 → pyLen p g hd = ok ds.shape.prod) ∧
    (2 ^ 63 ≤ ds.shape.prod → ds.shape.prod < 2 ^ 64 → pyLen p g hd = err .capacity) ∧
    (2 ^ 63 ≤ ds.shape.prod → ∀ n, pyLen p g hd = ok n → p = .release ∧ 2 ^ 64 ≤ ds.shape.prod) ∧
    pyShapeOf g hd = ok ds.shape ∧ pyChunkShape g hd = ok ds.chunkShape := by
  have hhd : hd = (none, s) := by
    unfold pyDataset at hh
    simp only [hds] at hh
    exact (Option.some.inj hh).symm
  subst hhd
  have hph : pyHandle g (none, s) = ok ds := by
    unfold pyHandle expectSome
    simp only [hds]
  have hW : W = 2 ^ 64 := by decide
  have h63 : (2 : Nat) ^ 63 = 9223372036854775808 := by decide
  have h64 : (2 : Nat) ^ 64 = 18446744073709551616 := by decide
  refine ⟨fun h => ?_, fun h h' => ?_, fun h n hn => ?_, ?_, ?_⟩
  · unfold pyLen
    rw [hph, ok_bind, C50 hpos (by omega), ok_bind, if_pos (by omega)]
  · unfold pyLen
    rw [hph, ok_bind, C50 hpos (by omega), ok_bind, if_neg (by omega)]
  · unfold pyLen at hn
    rw [hph, ok_bind] at hn
    by_cases hlt : ds.shape.prod < W
    · rw [C50 hpos hlt, ok_bind, if_neg (by omega)] at hn
      simp at hn
    · refine ⟨?_, by omega⟩
      cases p with
      | release => rfl
      | debug =>
        obtain ⟨m, h1, h2⟩ := bind_eq_ok.1 hn
        have := (C50_any ds).1 m h1
        split at h2
        · omega
        · simp at h2
  · unfold pyShapeOf; rw [hph, ok_bind]
  · unfold pyChunkShape; rw [hph, ok_bind]

example (p : Profile) : pyLen p (.mk none [([120], Demo.ds)] []) (none, [120]) = ok 12 :=
  (C50_python (s := [120]) (ds := Demo.ds) (g := .mk none [([120], Demo.ds)] []) rfl rfl (by decide)).1 (by decide)

end Hidefix.Props
