import Verif.Model.Tools
import Verif.Props.Open

/-!
# Property C58: the command line tools
-/

set_option autoImplicit false

namespace Hidefix.Spec
open Hidefix

/-- The listing names the file and exactly the allocated datasets of its root group, once each, with
their shapes. -/
structure Lists (input : Name) (root : H5Group) (l : Listing) : Prop where
  path : l.path = some input
  once : (l.datasets.map Prod.fst).Nodup
  datasets : ∀ n s, (n, s) ∈ l.datasets ↔ ∃ h, (n, h) ∈ root.datasets ∧ HasStorage h ∧ s = h.shape

end Hidefix.Spec

namespace Hidefix.Props
open Hidefix Hidefix.Spec Hidefix.Proofs Outcome

theorem index_shape {p : Profile} {h : H5Dataset} {ds : Dataset} (hi : DatasetD.index p h = ok ds) :
    ds.shape = h.shape := by
  unfold DatasetD.index at hi
  split at hi
  · obtain ⟨-, _, _, _, _, _, -, -, -, -, -, -, -, h8⟩ := index_inv hi
    exact (new_fields h8).2.2.1
  · simp at hi

theorem mapInsert_keys {α : Type} (m : List (Name × α)) (k : Name) (a : α)
    (h : (m.map Prod.fst).Nodup) : ((mapInsert m k a).map Prod.fst).Nodup ∧
      ∀ x, x ∈ (mapInsert m k a).map Prod.fst → x = k ∨ x ∈ m.map Prod.fst := by
  induction m with
  | nil => simp [mapInsert]
  | cons e m ih =>
    obtain ⟨k', a'⟩ := e
    rw [List.map_cons, List.nodup_cons] at h
    obtain ⟨i1, i2⟩ := ih h.2
    unfold mapInsert
    split
    · rename_i he
      subst he
      rw [List.map_cons, List.nodup_cons]
      exact ⟨h, fun x hx => by simpa using hx⟩
    · rename_i he
      rw [List.map_cons, List.nodup_cons]
      refine ⟨⟨fun hk => ?_, i1⟩, fun x hx => ?_⟩
      · rcases i2 _ hk with h1 | h1
        · exact he h1
        · exact h.1 h1
      · rw [List.mem_cons] at hx
        rw [List.map_cons, List.mem_cons]
        rcases hx with h1 | h1
        · exact .inr (.inl h1)
        · rcases i2 _ h1 with h2 | h2
          · exact .inl h2
          · exact .inr (.inr h2)

theorem mapCollect_keys {α : Type} (l : List (Name × α)) : ((mapCollect l).map Prod.fst).Nodup := by
  unfold mapCollect
  suffices H : ∀ m : List (Name × α), (m.map Prod.fst).Nodup →
      ((l.foldl (fun m e => mapInsert m e.1 e.2) m).map Prod.fst).Nodup from H [] (by simp)
  induction l with
  | nil => exact fun m h => h
  | cons e l ih => exact fun m h => ih _ (mapInsert_keys m e.1 e.2 h).1

theorem mem_iff_mapGet {α : Type} {m : List (Name × α)} (h : (m.map Prod.fst).Nodup) (k : Name) (a : α) :
    (k, a) ∈ m ↔ mapGet m k = some a := by
  induction m with
  | nil => simp [mapGet]
  | cons e m ih =>
    obtain ⟨k', a'⟩ := e
    rw [List.map_cons, List.nodup_cons] at h
    unfold mapGet
    split
    · rename_i he
      subst he
      simp only [List.mem_cons, Prod.mk.injEq, true_and, Option.some.injEq]
      constructor
      · rintro (rfl | h1)
        · rfl
        · exact absurd (List.mem_map_of_mem (f := Prod.fst) h1) h.1
      · exact fun h => .inl h.symm
    · rename_i he
      rw [← ih h.2, List.mem_cons, Prod.mk.injEq]
      constructor
      · rintro (⟨rfl, -⟩ | h1)
        · exact absurd rfl he
        · exact h1
      · exact .inr

/-- The listing of the index of a file. -/
theorem lists_index {p : Profile} {input : Name} {root : H5Group} {idx : Index} (hw : WellNamed root)
    (hi : Index.indexFile p (some input) root = ok idx) :
    Lists input root ⟨idx.root.path, idx.root.datasets.map fun e => (e.1, e.2.shape)⟩ := by
  have hi' := hi
  unfold Index.indexFile at hi'
  obtain ⟨g, h1, hi'⟩ := bind_eq_ok.1 hi'
  obtain rfl := Outcome.ok.inj hi'
  have hnd : (g.datasets.map Prod.fst).Nodup := by
    cases root with
    | mk ds gs =>
      simp only [indexGroup] at h1
      obtain ⟨d, -, h1⟩ := bind_eq_ok.1 h1
      obtain ⟨_, -, h1⟩ := bind_eq_ok.1 h1
      obtain rfl := Outcome.ok.inj h1
      exact mapCollect_keys d
  refine ⟨(C38_groups hw hi []).2 _ (.here _), ?_, fun n s => ?_⟩
  · simpa [Function.comp_def] using hnd
  · simp only [List.mem_map, Prod.mk.injEq]
    obtain ⟨d1, d2⟩ := index_datasets hw h1 n
    constructor
    · rintro ⟨⟨n', x⟩, hm, rfl, rfl⟩
      obtain ⟨h, k1, k2, k3⟩ := (d1 x).1 ((mem_iff_mapGet hnd _ _).1 hm)
      exact ⟨h, k1, k2, index_shape k3⟩
    · rintro ⟨h, k1, k2, rfl⟩
      obtain ⟨x, hx⟩ := d2 h k1 k2
      exact ⟨(n, x), (mem_iff_mapGet hnd _ _).2 ((d1 x).2 ⟨h, k1, k2, hx⟩), rfl, index_shape hx⟩

/-- C58: `hfxidx` then `hfxlst`. Whatever happens while `hfxidx` runs, no file but its output changes. If it
succeeds, `hfxlst` lists the file, and exactly the allocated datasets of its root group with their shapes;
if it fails or is interrupted at any point, the output is untouched, or rejected by `hfxlst`, or complete.
For bincode; missing: flexbuffers, which is not modelled and, if it is compiled in, is assumed to reject
what bincode wrote. -/
theorem C58_partial {p : Profile} {f : Features} {h5 : Name → Option H5Group} {fs fs' : Fs}
    {input output : Name} {ty : OutType} {root : H5Group} {o : Outcome Unit}
    (hpath : FitsU64 input.length ∧ IsUtf8 input) (h5f : h5 input = some root)
    (hroot : IsH5Group root) (hw : WellNamed root) (hb : f.bincode = true)
    (hty : ty = .bincode ∨ ty = .any ∧ f.flexbuffers = none)
    (hflex : ∀ x, f.flexbuffers = some x → ∀ bytes, hfxidxBytes p f h5 input ty = ok bytes →
      ∀ b, b <+: bytes → ∃ e, x.read b = err e)
    (hrun : HfxIdx p f h5 fs input output ty o fs') :
    (∀ q, q ≠ output → fs' q = fs q) ∧
    (o = ok () → ∃ l, hfxlst f fs' output = ok l ∧ Lists input root l) ∧
    (o ≠ ok () → fs' = fs ∨ (∃ e, hfxlst f fs' output = err e) ∨
      ∃ l, hfxlst f fs' output = ok l ∧ Lists input root l) := by
  cases hrun with
  | failed o h hne => exact ⟨fun _ _ => rfl, fun h => absurd h hne, fun _ => .inl rfl⟩
  | wrote bytes h o fs' hwr =>
    have hset : ∀ b q, q ≠ output → (fs.set output b) q = fs q := by
      intro b q hq
      simp [Fs.set, hq]
    have hget : ∀ b, (fs.set output b) output = some b := by
      intro b
      simp [Fs.set]
    -- the bytes are an index of the file
    obtain ⟨idx, hi, hs⟩ : ∃ idx, Index.indexFile p (some input) root = ok idx ∧ idx.save = ok bytes := by
      have h' := h
      unfold hfxidxBytes at h'
      obtain ⟨idx, h1, h2⟩ := bind_eq_ok.1 h'
      refine ⟨idx, ?_, ?_⟩
      · simpa [Index.index, h5f] using h1
      · rcases hty with rfl | ⟨rfl, hn⟩
        · cases hf : f.flexbuffers <;> simpa [hf, hb, bincodeFormat] using h2
        · simpa [hn, hb, bincodeFormat] using h2
    have hidx : IsIndex idx := by
      unfold Index.indexFile at hi
      obtain ⟨g, h1, hi⟩ := bind_eq_ok.1 hi
      obtain rfl := Outcome.ok.inj hi
      have hp : IsPath (some input) := by
        rintro s hs; obtain rfl := Option.some.inj hs; exact hpath.1
      exact ⟨hp, (indexed_group hp hroot hw h1).1⟩
    have hfull : hfxlst f (fs.set output bytes) output =
        ok ⟨idx.root.path, idx.root.datasets.map fun e => (e.1, e.2.shape)⟩ := by
      unfold hfxlst
      have := C51_bincode hidx hs (f.flexbuffers.map Format.read) (by
        intro d hd
        obtain ⟨x, hx, rfl⟩ := Option.map_eq_some_iff.1 hd
        exact hflex x hx bytes h bytes (List.prefix_refl _))
      simp only [hget, hb, if_true, bincodeFormat, this, ok_bind]
    cases hwr with
    | done =>
      exact ⟨hset _, fun _ => ⟨_, hfull, lists_index hw hi⟩, fun h => absurd rfl h⟩
    | notOpened => exact ⟨fun _ _ => rfl, fun h => by simp at h, fun _ => .inl rfl⟩
    | interrupted n =>
      refine ⟨hset _, fun h => by simp at h, fun _ => .inr ?_⟩
      by_cases hn : n < bytes.length
      · left
        refine ⟨.decode, ?_⟩
        have hcut := C54 hidx hs n hn
        unfold hfxlst readIndex
        simp only [hget, hb, if_true, bincodeFormat, hcut]
        cases hf : f.flexbuffers with
        | none => simp
        | some x =>
          obtain ⟨e, he⟩ := hflex x hf bytes h _ (List.take_prefix n bytes)
          simp [he]
      · right
        rw [List.take_of_length_le (by omega)]
        exact ⟨_, hfull, lists_index hw hi⟩

/-- C58: when `hfxidx` can succeed. Asked for bincode (by name, or by default where flexbuffers is not compiled
in), exactly if bincode is compiled in and the file can be indexed; asked for flexbuffers (by name, or by
default where it is compiled in), exactly if it is compiled in, the file can be indexed and flexbuffers writes
the index; asked for anything else, never. -/
theorem C58_success {p : Profile} {f : Features} {h5 : Name → Option H5Group} {fs : Fs}
    {input output : Name} {ty : OutType} {root : H5Group}
    (hpath : FitsU64 input.length ∧ IsUtf8 input) (h5f : h5 input = some root)
    (hroot : IsH5Group root) (hw : WellNamed root) :
    (∃ fs', HfxIdx p f h5 fs input output ty (ok ()) fs') ↔
      ∃ idx, Index.indexFile p (some input) root = ok idx ∧
        ((ty = .bincode ∨ ty = .any ∧ f.flexbuffers = none) ∧ f.bincode = true ∨
         (ty = .flexbuffers ∨ ty = .any) ∧ ∃ x bytes, f.flexbuffers = some x ∧ x.write idx = ok bytes) := by
  have hbytes : (∃ fs', HfxIdx p f h5 fs input output ty (ok ()) fs') ↔
      ∃ bytes, hfxidxBytes p f h5 input ty = ok bytes := by
    constructor
    · rintro ⟨fs', hrun⟩
      cases hrun with
      | failed _ h hne => exact absurd rfl hne
      | wrote bytes h _ _ _ => exact ⟨bytes, h⟩
    · rintro ⟨bytes, h⟩
      exact ⟨_, .wrote bytes h _ _ .done⟩
  rw [hbytes]
  have hsave : ∀ idx, Index.indexFile p (some input) root = ok idx → ∃ bytes, idx.save = ok bytes := by
    intro idx hi
    obtain ⟨bytes, hb, -⟩ := C32_indexed (p := p) (fpath := some input)
      (by rintro s hs; obtain rfl := Option.some.inj hs; exact hpath.1)
      (by rintro s hs; obtain rfl := Option.some.inj hs; exact hpath.2) hroot hw hi
    exact ⟨bytes, hb⟩
  unfold hfxidxBytes
  have hi : Index.index p h5 input = Index.indexFile p (some input) root := by
    simp [Index.index, h5f]
  rw [hi]
  constructor
  · rintro ⟨bytes, h⟩
    obtain ⟨idx, h1, h2⟩ := bind_eq_ok.1 h
    refine ⟨idx, h1, ?_⟩
    obtain ⟨fx, bc⟩ := f
    cases fx <;> cases ty <;> cases bc <;> simp_all
    all_goals exact ⟨_, h2⟩
  · rintro ⟨idx, h1, h2⟩
    rw [h1, ok_bind]
    obtain ⟨b, hb⟩ := hsave idx h1
    rcases h2 with ⟨h3, h4⟩ | ⟨h3, x, bytes, h5, h6⟩
    · refine ⟨b, ?_⟩
      rcases h3 with rfl | ⟨rfl, h3⟩
      · cases hf : f.flexbuffers <;> simp [h4, bincodeFormat, hb]
      · simp [h3, h4, bincodeFormat, hb]
    · refine ⟨bytes, ?_⟩
      rcases h3 with rfl | rfl <;> simp [h5, h6]

/-- The demo file: `hfxidx` has something to write, so a run that succeeds, and one that is cut short after
ten bytes. -/
example (p : Profile) (fs : Fs) : ∃ o fs', HfxIdx p ⟨none, true⟩
    (fun q => if q = [47, 102] then some demoRoot else none) fs [47, 102] [120] .any o fs' ∧ o = ok () := by
  obtain ⟨idx, hi⟩ := C38_succeeds (p := p) (fpath := some [47, 102]) demoRoot_wellNamed
    (fun names d h hd ha => by
      rw [demoRoot_only hd ha]
      obtain ⟨ds, h1, -⟩ := C34_complete (p := p) (h := demoH5) rfl rfl rfl rfl (by decide) (by decide)
        ⟨by decide, by decide, by decide, by decide⟩ rfl (by simp [demoH5]) rfl rfl (by decide)
      exact ⟨ds, h1⟩)
  obtain ⟨bytes, hb, -⟩ := C32_indexed (p := p) (fpath := some [47, 102])
    (by rintro s hs; obtain rfl := Option.some.inj hs; simp [FitsU64])
    (by rintro s hs; obtain rfl := Option.some.inj hs; exact utf8_iff.1 (by decide)) demoRoot_isH5 demoRoot_wellNamed hi
  refine ⟨ok (), _, .wrote bytes ?_ _ _ .done, rfl⟩
  simp [hfxidxBytes, Index.index, hi, bincodeFormat, hb]

/-- C58: what `hfxlst` needs. It lists only a file that exists and that one of the formats compiled in reads as
an index, and then the datasets of the root group of that index with their shapes. -/
theorem C58_listing {f : Features} {fs : Fs} {input : Name} {l : Listing} (h : hfxlst f fs input = ok l) :
    ∃ b idx, fs input = some b ∧
      ((∃ x, f.flexbuffers = some x ∧ x.read b = ok idx) ∨ f.bincode = true ∧ Index.load b = ok idx) ∧
      l.path = idx.root.path ∧
      ∀ n s, (n, s) ∈ l.datasets ↔ ∃ ds, (n, ds) ∈ idx.root.datasets ∧ ds.shape = s := by
  unfold hfxlst at h
  cases hb : fs input with
  | none => rw [hb] at h; simp at h
  | some b =>
    rw [hb] at h
    simp only at h
    obtain ⟨idx, h1, h2⟩ := bind_eq_ok.1 h
    obtain rfl := Outcome.ok.inj h2
    refine ⟨b, idx, rfl, ?_, rfl, fun n s => ?_⟩
    · obtain ⟨fx, bc⟩ := f
      unfold readIndex at h1
      clear h
      cases fx with
      | none => cases hl : Index.load b <;> cases bc <;> simp_all [bincodeFormat]
      | some x =>
        cases hx : x.read b <;> cases hl : Index.load b <;> cases bc <;> simp_all [bincodeFormat]
    · simp only [List.mem_map, Prod.mk.injEq]
      constructor
      · rintro ⟨⟨n', d⟩, h1, rfl, rfl⟩
        exact ⟨d, h1, rfl⟩
      · rintro ⟨d, h1, rfl⟩
        exact ⟨⟨n, d⟩, h1, rfl, rfl⟩

/-- A missing file is not listed. -/
example (f : Features) : ∀ l, hfxlst f (fun _ => none) [120] ≠ ok l := by
  intro l h
  obtain ⟨b, idx, h1, -⟩ := C58_listing h
  cases h1

/-- Without any format compiled in it never succeeds. -/
example (p : Profile) (fs : Fs) : ¬ ∃ fs', HfxIdx p ⟨none, false⟩
    (fun q => if q = [47, 102] then some demoRoot else none) fs [47, 102] [120] .any (ok ()) fs' := by
  rw [C58_success (root := demoRoot) ⟨by simp [FitsU64], utf8_iff.1 (by decide)⟩ (by simp) demoRoot_isH5
    demoRoot_wellNamed]
  simp

end Hidefix.Props
