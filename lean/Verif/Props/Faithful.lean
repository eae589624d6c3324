import Verif.Props.Builds
import Verif.Props.Session
import Verif.Props.Groups
import Verif.Props.Entry
import Verif.Proofs.Faithful
import Verif.Proofs.Final

/-!
# Property C75: a debug build that does not panic shows what a release build does

Everything here is for arbitrary arguments: malformed indexes, damaged files, selections that are out of
bounds, destinations of any length, servers that answer anything. A Rust program is built in debug mode
(the arithmetic and the debug assertions are checked) or in release mode (the arithmetic wraps around);
a call that does not panic in the first gives the same in the second.
-/

set_option autoImplicit false

namespace Hidefix.Props
open Hidefix Hidefix.Spec Hidefix.Proofs Outcome

/-- C75 for the conversions into a selection: `e` is any expression that has one. -/
theorem C75_selection (e : SelExpr) (h : ∀ f, Extents.ofExpr .debug e ≠ .panic f) :
    Extents.ofExpr .release e = Extents.ofExpr .debug e := (le_selection e).same h

/-- C75 for indexing: a file, a dataset, and `hfxidx`. -/
theorem C75_index (h5 : Name → Option H5Group) (path : Name) (d : H5Dataset) (ft : Features) (ty : OutType) :
    ((∀ f, Index.index .debug h5 path ≠ .panic f) → Index.index .release h5 path = Index.index .debug h5 path) ∧
    ((∀ f, DatasetD.index .debug d ≠ .panic f) → DatasetD.index .release d = DatasetD.index .debug d) ∧
    ((∀ f, hfxidxBytes .debug ft h5 path ty ≠ .panic f) →
      hfxidxBytes .release ft h5 path ty = hfxidxBytes .debug ft h5 path ty) :=
  ⟨(le_index _ _).same, (le_datasetDIndex _).same, (le_hfxidxBytes _ _ _ _).same⟩

/-- C75 for the tests and sizes of a dataset. -/
theorem C75_dataset (ds : Dataset) :
    ((∀ f, ds.size .debug ≠ .panic f) → ds.size .release = ds.size .debug) ∧
    ((∀ f, ds.valid .debug ≠ .panic f) → ds.valid .release = ds.valid .debug) :=
  ⟨(le_size _).same, (le_valid _).same⟩

/-- C75 for the readers an index opens. -/
theorem C75_open (fs : Fs) (g : GroupIndex) (s : Name) (ds : Dataset) (path : Name) :
    ((∀ f, g.reader .debug fs s ≠ .panic f) → g.reader .release fs s = g.reader .debug fs s) ∧
    ((∀ f, g.streamer .debug s ≠ .panic f) → g.streamer .release s = g.streamer .debug s) ∧
    ((∀ f, ds.asParReader .debug path ≠ .panic f) → ds.asParReader .release path = ds.asParReader .debug path) :=
  ⟨(le_reader _ _ _).same, (le_streamer _ _).same, (le_asParReader _ _).same⟩

/-- C75 for one read into a destination: by a caching reader in any state (result, destination and reader
afterwards), by the direct reader, and from S3, with the requests completing in any order. -/
theorem C75_read {io : Io} {file : List Byte} {ds : Dataset} {ext : Extents} {dst : List Byte}
    (rd : CacheReader) (sort : List GItem → List GItem) (server : Server)
    (complete : List Request → List Request) :
    ((∀ f, (rd.readTo .debug io file ds ext dst).1 ≠ .panic f) →
      rd.readTo .release io file ds ext dst = rd.readTo .debug io file ds ext dst) ∧
    ((∀ f, (directReadTo .debug io ds sort ext dst).1 ≠ .panic f) →
      directReadTo .release io ds sort ext dst = directReadTo .debug io ds sort ext dst) ∧
    ((∀ f, (s3ReadTo .debug io.inflate ds sort server complete ext dst).1 ≠ .panic f) →
      s3ReadTo .release io.inflate ds sort server complete ext dst =
        s3ReadTo .debug io.inflate ds sort server complete ext dst) :=
  ⟨(le_readTo _ _ _ _ _ _).same, (le_directReadTo _ _ _ _ _).same, (le_s3ReadTo _ _ _ _ _ _ _).same⟩

/-- C75 for the parallel reader, whose result depends on the scheduling: if no schedule of the debug build
panics, the two builds have the same possible results. -/
theorem C75_par {io : Io} {ds : Dataset} {sort : List GItem → List GItem} {ext : Extents} {dst : List Byte}
    (h : ∀ res, DirectReadToPar .debug io ds sort ext dst res → ∀ f, res.1 ≠ .panic f)
    (res : Outcome Nat × List Byte) :
    DirectReadToPar .release io ds sort ext dst res ↔ DirectReadToPar .debug io ds sort ext dst res := by
  refine ⟨fun hr => ?_, fun hd => le_par hd (h res hd)⟩
  have hpre : parPrelude .release ds sort ext dst.length = parPrelude .debug ds sort ext dst.length := by
    refine (le_parPrelude ds sort ext dst.length).same fun f hf => ?_
    exact h _ (.early (.panic f) (by rw [hf]; rfl) (by simp)) f rfl
  cases hr with
  | early e he hne => exact .early e (by rw [← hpre]; exact he) hne
  | ran csz vsz groups r dst' hp hrun =>
    rw [hpre] at hp
    have hg : groups.map (parGroup .release io ds csz dst.length) =
        groups.map (parGroup .debug io ds csz dst.length) := by
      refine List.map_congr_left fun g hgm => ?_
      rcases le_parGroup io ds csz dst.length g with ⟨⟨f, hf⟩, -⟩ | he
      · refine absurd ?_ (h _ (.ran csz vsz groups _ _ hp
          (.failed _ (List.mem_map_of_mem hgm) (by rw [hf]; simp) [] _ (List.Perm.refl _))) f)
        rw [hf]; rfl
      · exact he.symm
    rw [hg] at hrun
    exact .ran csz vsz groups r dst' hp hrun

/-- C75 for streams, consumed to the end: if neither the call nor a poll panics in the debug build, the
release build gives the same items and the same ending; also after conversion to XDR, and to values. -/
theorem C75_stream {rt : Rt} {io : Io} {ds : Dataset} {ext : Extents} {hst : Host} {t : Prim} :
    ((∀ f, streamBytes .debug rt io ds ext ≠ .panic f) →
      (∀ items f, streamBytes .debug rt io ds ext ≠ ok ⟨items, .panic f⟩) →
      streamBytes .release rt io ds ext = streamBytes .debug rt io ds ext ∧
      streamValues .release rt hst io ds t ext = streamValues .debug rt hst io ds t ext) ∧
    ((∀ f, streamXdr .debug rt hst io ds ext ≠ .panic f) →
      (∀ items f, streamXdr .debug rt hst io ds ext ≠ ok ⟨items, .panic f⟩) →
      streamXdr .release rt hst io ds ext = streamXdr .debug rt hst io ds ext) := by
  refine ⟨fun h hn => ?_, C44_xdr_partial⟩
  have e := C44_stream_partial h hn
  exact ⟨e, by unfold streamValues; rw [e]⟩

/-- What a parallel reader of the release build may do when that of the debug build does `rd`. -/
theorem par_released {io : Io} {ds : Dataset} {sort : List GItem → List GItem} {rd : ByteReader}
    (hrd : ∀ ext dst, DirectReadToPar .debug io ds sort ext dst (rd ext dst)) :
    ∃ rd' : ByteReader, (∀ ext dst, DirectReadToPar .release io ds sort ext dst (rd' ext dst)) ∧
      ∀ ext dst, PLe (rd ext dst) (rd' ext dst) := by
  classical
  refine ⟨fun ext dst => if ∃ f, (rd ext dst).1 = .panic f then
      (par_exists .release io ds sort ext dst).choose else rd ext dst, fun ext dst => ?_, fun ext dst => ?_⟩
  · dsimp only
    split
    · exact (par_exists .release io ds sort ext dst).choose_spec
    · rename_i hn
      exact le_par (hrd ext dst) fun f hf => hn ⟨f, hf⟩
  · dsimp only
    split
    · rename_i hp; exact .inl hp
    · exact .inr rfl

/-- C75 for typed values. By the direct reader they are the same; by the parallel reader, and into a new
array or an uninitialised vector: what the debug build returns under some schedule (and some content of
the uninitialised memory), the release build can return. -/
theorem C75_values {hst : Host} {t : Prim} {io : Io} {ds : Dataset} {sort : List GItem → List GItem}
    {ext : Extents} {rd : ByteReader} (hrd : ∀ ext dst, DirectReadToPar .debug io ds sort ext dst (rd ext dst))
    (junk : Nat → Byte) :
    ((∀ f, values .debug hst t ds (directReadTo .debug io ds sort) ext ≠ .panic f) →
      values .release hst t ds (directReadTo .release io ds sort) ext =
        values .debug hst t ds (directReadTo .debug io ds sort) ext) ∧
    ∃ rd' : ByteReader, (∀ ext dst, DirectReadToPar .release io ds sort ext dst (rd' ext dst)) ∧
      ((∀ f, values .debug hst t ds rd ext ≠ .panic f) →
        values .release hst t ds rd' ext = values .debug hst t ds rd ext) ∧
      ((∀ f, valuesUnstable .debug hst t ds rd ext junk ≠ .panic f) →
        valuesUnstable .release hst t ds rd' ext junk = valuesUnstable .debug hst t ds rd ext junk) ∧
      ((∀ f, valuesDynPar .debug hst t ds rd ext junk ≠ .panic f) →
        valuesDynPar .release hst t ds rd' ext junk = valuesDynPar .debug hst t ds rd ext junk) := by
  refine ⟨C44_values_partial, ?_⟩
  obtain ⟨rd', h1, h2⟩ := par_released hrd
  exact ⟨rd', h1, (le_values (h2 ext)).same, (le_valuesUnstable junk (h2 ext)).same,
    (le_valuesDynPar junk (h2 ext)).same⟩

/-- C75 for the Python module: `len(ds)`, `ds[items]`, and indexing a variable through the xarray backend
(`name` in `group`, masking `fill`). Where a parallel read takes place, what the debug build returns under
some schedule the release build can return. -/
theorem C75_python {hst : Host} {io : Io} {sort : List GItem → List GItem} {rd : Dataset → ByteReader}
    (hrd : ∀ ds ext dst, DirectReadToPar .debug io ds sort ext dst (rd ds ext dst)) (junk : Nat → Byte)
    (g : GroupIndex) :
    (∀ hd, (∀ f, pyLen .debug g hd ≠ .panic f) → pyLen .release g hd = pyLen .debug g hd) ∧
    ∃ rd' : Dataset → ByteReader,
      (∀ ds ext dst, DirectReadToPar .release io ds sort ext dst (rd' ds ext dst)) ∧
      (∀ ds items, (∀ f, pyGetItem .debug hst ds (rd ds) junk items ≠ .panic f) →
        pyGetItem .release hst ds (rd' ds) junk items = pyGetItem .debug hst ds (rd ds) junk items) ∧
      ∀ narrow sched name group fill key,
        (∀ f, xrGetItem .debug narrow hst g rd junk sched name group fill key ≠ .panic f) →
        xrGetItem .release narrow hst g rd' junk sched name group fill key =
          xrGetItem .debug narrow hst g rd junk sched name group fill key := by
  refine ⟨fun hd => (le_pyLen g hd).same, ?_⟩
  choose rd' h1 h2 using fun ds => par_released (hrd ds)
  exact ⟨rd', h1, fun ds items => (le_pyGetItem junk items (h2 ds)).same,
    fun narrow sched name group fill key => (le_xrGetItem junk sched name group fill key h2).same⟩

/-- The answer to a call is a panic. -/
def Panicked : Answer → Prop
  | .read r _ => ∃ f, r = .panic f
  | .item a => ∃ f, a = some (.panic f)
  | .noSuchMethod => False

/-- C75 for whole programs: any calls, on any number of readers and streams in any state, in any order,
while the file changes: up to its first panic (so, if there is none, to its end) the debug build gets the
answers that the release build gets. -/
theorem C75_session {rt : Rt} {io : Io} {sort : List GItem → List GItem} (hs : Nat → Handle)
    (calls : List (Nat × Call)) (n : Nat)
    (h : ∀ a ∈ (session .debug rt io sort hs calls).take n, ¬ Panicked a.2) :
    (session .release rt io sort hs calls).take n = (session .debug rt io sort hs calls).take n := by
  induction calls generalizing hs n with
  | nil => rfl
  | cons c cs ih =>
    obtain ⟨i, c⟩ := c
    cases n with
    | zero => rfl
    | succ n =>
      have hc : (hs i).call .release rt io sort c = (hs i).call .debug rt io sort c := by
        have h0 : ¬ Panicked ((hs i).call .debug rt io sort c).1 := h (i, _) (by simp [session])
        cases hsi : hs i with
        | cached ds rd =>
          cases c with
          | readTo disk ext dst =>
            rw [hsi] at h0
            have := (le_readToU io disk ds rd ext dst).same fun f hf => h0 ⟨f, hf⟩
            dsimp only [Handle.call]; rw [this]
          | poll file => rfl
        | direct ds =>
          cases c with
          | readTo disk ext dst =>
            rw [hsi] at h0
            have := (le_directReadToU io disk ds sort ext dst).same fun f hf => h0 ⟨f, hf⟩
            dsimp only [Handle.call]; rw [this]
          | poll file => rfl
        | stream ds csz factor conv g =>
          cases c with
          | readTo disk ext dst => rfl
          | poll file =>
            rw [hsi] at h0
            rcases le_poll rt io ds csz factor conv file g with ⟨f, hf⟩ | he
            · exact absurd ⟨f, hf⟩ h0
            · dsimp only [Handle.call]; rw [he]
      simp only [session, List.take_succ_cons, hc]
      refine congrArg _ (ih _ n fun a ha => h a ?_)
      simp only [session, List.take_succ_cons, List.mem_cons]
      exact .inr ha

/-- C75 for polls, one at a time, of a stream: up to the first panic the same answers, and the same ranges
of the file are read. -/
theorem C75_poll {rt : Rt} {io : Io} {ds : Dataset} {ext : Extents} (disks : List (Option (List Byte)))
    (h : ∀ f, streamPolls .debug rt io ds ext disks ≠ .panic f)
    (hn : ∀ l, streamPolls .debug rt io ds ext disks = ok l → ∀ a ∈ l, ∀ f, a.1 ≠ some (.panic f)) :
    streamPolls .release rt io ds ext disks = streamPolls .debug rt io ds ext disks := by
  have hnew : streamNew .release ds ext = streamNew .debug ds ext :=
    (le_streamNew ds ext).same fun f hf => h f (by unfold streamPolls; rw [hf]; rfl)
  unfold streamPolls at hn ⊢
  rw [hnew]
  cases hg : streamNew .debug ds ext with
  | ok x =>
    obtain ⟨csz, g⟩ := x
    rw [hg] at hn
    have hn' := hn _ rfl
    simp only [ok_bind]
    refine congrArg ok ?_
    clear hn hg hnew h
    induction disks generalizing g with
    | nil => rfl
    | cons d ds' ih =>
      have h1 := hn' ((g.poll .debug rt io ds csz (ok 1) ok d).1, _) (by simp only [Gen.polls]; exact List.mem_cons_self)
      have hp : g.poll .release rt io ds csz (ok 1) ok d = g.poll .debug rt io ds csz (ok 1) ok d := by
        rcases le_poll rt io ds csz (ok 1) ok d g with ⟨f, hf⟩ | he
        · exact absurd hf (h1 f)
        · exact he.symm
      simp only [Gen.polls, hp]
      refine congrArg _ (ih _ fun a ha => hn' a ?_)
      simp only [Gen.polls]
      exact List.mem_cons_of_mem _ ha
  | _ => rfl

/-! ## Examples -/

instance (a : Answer) : Decidable (Panicked a) :=
  match a with
  | .read (.panic f) _ => isTrue ⟨f, rfl⟩
  | .read (ok _) _ => isFalse fun ⟨_, h⟩ => by simp at h
  | .read (err _) _ => isFalse fun ⟨_, h⟩ => by simp at h
  | .read ub _ => isFalse fun ⟨_, h⟩ => by simp at h
  | .read diverge _ => isFalse fun ⟨_, h⟩ => by simp at h
  | .item (some (.panic f)) => isTrue ⟨f, rfl⟩
  | .item none => isFalse fun ⟨_, h⟩ => by simp at h
  | .item (some (ok _)) => isFalse fun ⟨_, h⟩ => by simp at h
  | .item (some (err _)) => isFalse fun ⟨_, h⟩ => by simp at h
  | .item (some ub) => isFalse fun ⟨_, h⟩ => by simp at h
  | .item (some diverge) => isFalse fun ⟨_, h⟩ => by simp at h
  | .noSuchMethod => isFalse id

/-- `1..=3`, `..=7`: the debug build does not panic. -/
example : Extents.ofExpr .release (.list [.rangeIncl 1 3, .rangeToIncl 7]) =
    Extents.ofExpr .debug (.list [.rangeIncl 1 3, .rangeToIncl 7]) :=
  C75_selection _ (by
    have : Extents.ofExpr .debug (.list [.rangeIncl 1 3, .rangeToIncl 7]) =
      ok (.extent [.sliceEnd 1 4, .sliceEnd 0 8]) := by decide
    rw [this]; simp)

/-- Indexing a file with groups. -/
example : ∀ path, Index.index .release (fun _ => some demoRoot) path = Index.index .debug (fun _ => some demoRoot) path := by
  intro path
  refine (C75_index (fun _ => some demoRoot) path demoH5 ⟨none, false⟩ .any).1 fun f hf => ?_
  obtain ⟨idx, hi⟩ := demo_indexes .debug path
  have : Index.index .debug (fun _ => some demoRoot) path = ok idx := hi
  rw [this] at hf
  simp at hf

/-- An S3 read whose server always fails, and one whose answer is too short. -/
example (status : Nat) (hs : status = 206 ∨ status = 500) :
    s3ReadTo .release Demo.inflate Demo.ds id (fun _ _ => some (status, [1, 2, 3])) List.reverse .all (List.replicate 24 7) =
      s3ReadTo .debug Demo.inflate Demo.ds id (fun _ _ => some (status, [1, 2, 3])) List.reverse .all (List.replicate 24 7) :=
  (C75_read (io := Demo.io) (file := []) ⟨0, ⟨0, []⟩⟩ id (fun _ _ => some (status, [1, 2, 3])) List.reverse).2.2 fun f => by
    have : (s3ReadTo .debug Demo.io.inflate Demo.ds id (fun _ _ => some (status, [1, 2, 3])) List.reverse .all
        (List.replicate 24 7)).1 = err .http := by
      rcases hs with rfl | rfl <;> decide +kernel
    rw [this]; simp

/-- `ds[1:3, 1:]` from Python. -/
example {rd : Dataset → ByteReader} (hrd : ∀ ds ext dst, DirectReadToPar .debug Demo.io ds sortByAddr ext dst (rd ds ext dst))
    (junk : Nat → Byte) :
    ∃ rd' : Dataset → ByteReader, (∀ ds ext dst, DirectReadToPar .release Demo.io ds sortByAddr ext dst (rd' ds ext dst)) ∧
      pyGetItem .release .little Demo.ds (rd' Demo.ds) junk [.slice (some 1) (some 3) none, .slice (some 1) none none] =
        pyGetItem .debug .little Demo.ds (rd Demo.ds) junk [.slice (some 1) (some 3) none, .slice (some 1) none none] := by
  obtain ⟨rd', h1, h2, -⟩ := (C75_python (hst := .little) hrd junk (.mk none [] [])).2
  refine ⟨rd', h1, h2 _ _ fun f hf => ?_⟩
  obtain ⟨vs, h3, -⟩ := C39_partial (p := .debug) (hst := .little) (t := .u16)
    (items := [.slice (some 1) (some 3) none, .slice (some 1) none none]) (ls := [[1, 2], [1, 2, 3]])
    (Demo.wf .debug) Demo.addr rfl Demo.stores Demo.sizes rfl (.inl (by unfold Swaps; decide)) sortByAddr_ok
    (hrd Demo.ds) (by decide) (by decide) (by decide) (by decide) (by unfold Good; decide) (by decide)
  rw [h3] at hf
  simp at hf

/-- All schedules of a parallel read of the demo dataset. -/
example (res : Outcome Nat × List Byte) :
    DirectReadToPar .release Demo.io Demo.ds sortByAddr Demo.ext (List.replicate 12 0) res ↔
      DirectReadToPar .debug Demo.io Demo.ds sortByAddr Demo.ext (List.replicate 12 0) res :=
  C75_par (fun res h f hf => by
    have := (C01_par_partial (Demo.setup .debug) Demo.good sortByAddr_ok (by decide) res).1 h
    rw [this] at hf
    simp at hf) res

/-- Six calls on two caching readers and a stream; the file grows, or fails, under some of them. -/
example :
    session .release .none Demo.io id (demoHandles ⟨8, ⟨4194304, []⟩⟩ 8 (.fresh 4194304 [⟨9, 9, 0, 4⟩, ⟨0, 9, 0, 4⟩])) demoCalls =
      session .debug .none Demo.io id (demoHandles ⟨8, ⟨4194304, []⟩⟩ 8 (.fresh 4194304 [⟨9, 9, 0, 4⟩, ⟨0, 9, 0, 4⟩])) demoCalls := by
  have h := C75_session (rt := .none) (io := Demo.io) (sort := id)
    (demoHandles ⟨8, ⟨4194304, []⟩⟩ 8 (.fresh 4194304 [⟨9, 9, 0, 4⟩, ⟨0, 9, 0, 4⟩])) demoCalls 6 ?_
  · exact h
  · decide +kernel

end Hidefix.Props
