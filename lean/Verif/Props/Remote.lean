import Verif.Props.Damage
import Verif.Proofs.S3

/-!
# Properties C17, C18, C19, C42: reading from an object store
-/

set_option autoImplicit false

namespace Hidefix.Props
open Hidefix Hidefix.Spec Hidefix.Proofs Outcome

/-! ## C18 -/

/-- C18: for any list of slices whose chunks end below `2^64`, grouping succeeds; the requests carry
exactly the given slices, in the given order; every chunk lies inside the range of its request; every
request is well-formed (`Spec.RequestOk`: gaps of at most 32 KiB, larger than 8 MiB only if there is
a single chunk); no two consecutive requests could have been merged. -/
theorem C18 {p : Profile} {groups : List GItem}
    (hW : ∀ g ∈ groups, g.chunk.addr + g.chunk.size < W) :
    ∃ reqs, groupRequests p groups = ok reqs ∧
      (reqs.flatMap Request.slices).map sliceKey = groups.map sliceKey ∧
      (∀ r ∈ reqs, ∀ cs ∈ r.chunks, (∃ g ∈ groups, g.chunk = cs.1) ∧
        r.start ≤ cs.1.addr ∧ cs.1.addr + cs.1.size ≤ r.stop) ∧
      (∀ r ∈ reqs, RequestOk r) ∧ reqs.IsChain Separate := by
  obtain ⟨reqs, h1, h2⟩ := groupRequests_ok (p := p) hW
  exact ⟨reqs, h1, h2.keys, fun r hr cs hcs => ⟨h2.mem r hr cs hcs, (h2.good r hr).inside cs hcs⟩,
    h2.good, h2.sep⟩

/-- Four chunks, five slices: the first two chunks are merged, a 1 KiB gap too, a large gap is not. -/
def groups18 : List GItem :=
  [⟨⟨1000, 500, [0]⟩, 0, 0, 10⟩, ⟨⟨1000, 500, [0]⟩, 40, 20, 30⟩, ⟨⟨1500, 500, [10]⟩, 10, 0, 10⟩,
   ⟨⟨2500, 500, [20]⟩, 20, 0, 10⟩, ⟨⟨68536, 500, [30]⟩, 30, 0, 10⟩]

example : ∀ g ∈ groups18, g.chunk.addr + g.chunk.size < W := by decide
example (p : Profile) : groupRequests p groups18 = ok
    [⟨1000, 3000, [(⟨1000, 500, [0]⟩, [⟨0, 0, 10⟩, ⟨40, 20, 30⟩]), (⟨1500, 500, [10]⟩, [⟨10, 0, 10⟩]),
      (⟨2500, 500, [20]⟩, [⟨20, 0, 10⟩])], ⟩,
     ⟨68536, 69036, [(⟨68536, 500, [30]⟩, [⟨30, 0, 10⟩])]⟩] := by
  cases p <;> decide +kernel

/-! ## C17 -/

theorem truthful_of_serves {file : List Byte} {server : Server} (h : Serves file server)
    (hrev : ∀ a b s body, b < a → server a b = some (s, body) → s ≠ 206 ∧ s ≠ 200) :
    Truthful file server := by
  intro a b s body hs
  by_cases hab : a ≤ b
  · by_cases ha : a < file.length
    · rw [h.inside a b hab ha] at hs
      simp only [Option.some.injEq, Prod.mk.injEq] at hs
      obtain ⟨rfl, rfl⟩ := hs
      exact ⟨fun _ => List.take_prefix _ _, by simp⟩
    · have := h.outside a b s body (by omega) hs
      subst this; simp
  · have := hrev a b s body (by omega) hs
    exact ⟨fun e => absurd e this.1, fun e => absurd e this.2⟩

/-- The answers to reversed ranges do not matter: they are never asked for. -/
def forwardOnly (server : Server) : Server := fun a b => if a ≤ b then server a b else none

theorem fetch_forward {p : Profile} {server : Server} {r : Request} (h : r.start < r.stop) :
    fetch p (forwardOnly server) r = fetch p server r := by
  unfold fetch forwardOnly
  rw [sub64_of_le (by omega), ok_bind, ok_bind]
  rw [if_pos (by omega)]

theorem s3Step_forward {p : Profile} {inflate : List Byte → Option (List Byte)} {ds : Dataset}
    {csz : Nat} {server : Server} {s : S3St} {o : S3Op}
    (h : ∀ r, o = .recv r → r.start < r.stop) :
    s3Step p inflate ds csz (forwardOnly server) s o = s3Step p inflate ds csz server s o := by
  cases o with
  | recv r => unfold s3Step; simp only; rw [fetch_forward (h r rfl)]
  | decode c => rfl
  | copy g => rfl

theorem loop_congr {σ β : Type} {f g : σ → β → Outcome σ} {bs : List β}
    (h : ∀ s, ∀ b ∈ bs, f s b = g s b) (s : σ) : loop f s bs = loop g s bs := by
  induction bs generalizing s with
  | nil => rfl
  | cons b bs ih =>
    unfold loop
    rw [h s b (by simp)]
    split
    · exact ih (fun s' b' hb => h s' b' (by simp [hb])) _
    all_goals rfl

/-- The common part of C17 and C19: agreement with the file read, for a truthful server. -/
theorem s3_core {p : Profile} {io : Io} {file : List Byte} {ds : Dataset} {ext : Extents}
    {sort sort' : List GItem → List GItem} {server : Server}
    {complete : List Request → List Request} (hk : Checked p ds ext) (hdet : AddrDet ds)
    (hpos : ∀ c ∈ ds.chunks, 0 < c.size ∧ c.addr + c.size < W) (hlen : file.length < 2 ^ 63)
    (hf : io.file = some file) (hsrv : Truthful file server)
    (hsort : ∀ l, SortedByAddr l (sort l)) (hsort' : ∀ l, SortedByAddr l (sort' l))
    (hcomp : ∀ l, (complete l).Perm l) (dst : List Byte) (n : Nat)
    (hok : (s3ReadTo p io.inflate ds sort server complete ext dst).1 = ok n) :
    (directReadTo p io ds sort' ext dst).1 = ok n ∧
    (s3ReadTo p io.inflate ds sort server complete ext dst).2 =
      (directReadTo p io ds sort' ext dst).2 := by
  obtain ⟨csz, vsz, items, h1, h2, h3, h4⟩ := s3ReadTo_inv hok
  have hS := checked_sliced hk h1 h2 h3
  obtain ⟨reqs, -, -, -, q1, q2⟩ := s3ReadTo_iff (io := io) (dst := dst) hdet (fun l => (hsort l).1)
    hcomp hlen hsrv hpos h1 hS h4
  obtain ⟨-, d2⟩ := directReadTo_iff hdet (fun l => (hsort' l).1) h1 hf hS h4
  obtain ⟨rfl, -, hr⟩ := (q1 n).1 hok
  rw [d2 hr]
  exact ⟨rfl, q2 _ hok⟩

/-- C17: against a server that serves ranges of the object correctly, an S3 read and
`Direct::read_to` on a file with the same content both succeed, with the same number and the same
destination, or both fail, for every order in which the concurrent requests complete. For checked
reads (`Spec.Checked`) and chunks that are not empty; missing: release builds and selections that are
not good. -/
theorem C17_partial {p : Profile} {io : Io} {file : List Byte} {ds : Dataset} {ext : Extents}
    {sort sort' : List GItem → List GItem} {server : Server}
    {complete : List Request → List Request} (hk : Checked p ds ext) (hdet : AddrDet ds)
    (hpos : ∀ c ∈ ds.chunks, 0 < c.size ∧ c.addr + c.size < W) (hlen : file.length < 2 ^ 63)
    (hf : io.file = some file) (hsrv : Serves file server)
    (hsort : ∀ l, SortedByAddr l (sort l)) (hsort' : ∀ l, SortedByAddr l (sort' l))
    (hcomp : ∀ l, (complete l).Perm l) (dst : List Byte) :
    let remote := s3ReadTo p io.inflate ds sort server complete ext dst
    let direct := directReadTo p io ds sort' ext dst
    (∀ n, remote.1 = ok n ↔ direct.1 = ok n) ∧ (∀ n, remote.1 = ok n → remote.2 = direct.2) := by
  intro remote direct
  have htr : Truthful file (forwardOnly server) := by
    refine truthful_of_serves ⟨fun a b h1 h2 => ?_, fun a b s body h1 h2 => ?_⟩
      (fun a b s body h1 h2 => ?_)
    · unfold forwardOnly; rw [if_pos h1]; exact hsrv.inside a b h1 h2
    · unfold forwardOnly at h2
      split at h2
      · exact hsrv.outside a b s body h1 h2
      · simp at h2
    · unfold forwardOnly at h2; rw [if_neg (by omega)] at h2; simp at h2
  by_cases hs : ∃ csz vsz items, chunkBytes p ds = ok csz ∧ reqBytes p ds ext = ok vsz ∧
      ds.chunkSlices p ext = ok ⟨items, ok ()⟩ ∧ vsz ≤ dst.length
  · obtain ⟨csz, vsz, items, h1, h2, h3, h4⟩ := hs
    have hS := checked_sliced hk h1 h2 h3
    obtain ⟨reqs, hreqs, hrok, hinv, q1, q2⟩ := s3ReadTo_iff (io := io) (dst := dst) hdet
      (fun l => (hsort l).1) hcomp hlen htr hpos h1 hS h4
    obtain ⟨d1, d2⟩ := directReadTo_iff hdet (fun l => (hsort' l).1) h1 hf hS h4
    have hfw : remote = s3ReadTo p io.inflate ds sort (forwardOnly server) complete ext dst := by
      have hpre : s3Prelude p ds sort ext dst.length = ok (csz, vsz, reqs) := by
        unfold s3Prelude
        rw [h1, ok_bind, hS.req, ok_bind, show decide (vsz ≤ dst.length) = true by simpa using h4,
          ensure_true, ok_bind, hS.groups, ok_bind, hreqs, ok_bind]
      show s3ReadTo p io.inflate ds sort server complete ext dst = _
      unfold s3ReadTo
      rw [hpre]
      simp only
      rw [loop_congr (f := s3Step p io.inflate ds csz (forwardOnly server))
        (g := s3Step p io.inflate ds csz server)]
      intro s o ho
      apply s3Step_forward
      rintro r rfl
      simp only [List.mem_flatMap, requestOps, List.mem_cons, reduceCtorEq, S3Op.recv.injEq] at ho
      obtain ⟨r', hr', e⟩ := ho
      rcases e with rfl | ⟨cs, -, h'⟩
      · exact (hrok r ((hcomp reqs).mem_iff.1 hr')).start_lt
      · simp at h'
    have huse : (∀ it ∈ items, Ready (rawD p io file ds csz) ds.dsize it.chunk it.stop) →
        ∀ r ∈ reqs, Usable (forwardOnly server) r.start (r.stop - 1) := by
      intro hr r hr'
      have hlt := (hrok r hr').start_lt
      obtain ⟨init, c, hc1, hc2⟩ := (hrok r hr').last
      obtain ⟨g, hg, e⟩ := hinv.mem r hr' c (by rw [hc1]; simp)
      have hg' := (hsort (tile 0 items)).1.mem_iff.2 hg
      obtain ⟨v, hv, -⟩ := hr _ (tile_mem hg')
      simp only at hv
      rw [e] at hv
      have hp := (hrok r hr').pos c (by rw [hc1]; simp)
      have hin : c.1.addr + c.1.size ≤ file.length := by
        unfold rawD readChunk readRaw at hv
        obtain ⟨_, -, hv⟩ := bind_eq_ok.1 hv
        obtain ⟨_, hv, -⟩ := bind_eq_ok.1 hv
        split at hv
        · simp at hv
        · split at hv
          · assumption
          · rw [if_neg (by omega)] at hv; simp at hv
      refine ⟨206, (file.drop r.start).take (r.stop - 1 + 1 - r.start), ?_, .inl rfl, ?_⟩
      · unfold forwardOnly
        rw [if_pos (by omega)]
        exact hsrv.inside _ _ (by omega) (by omega)
      · simp only [List.length_take, List.length_drop]; omega
    rw [hfw]
    refine ⟨fun n => ?_, fun n hn => ?_⟩
    · rw [q1 n, d1 n]
      exact ⟨fun h => ⟨h.1, h.2.2⟩, fun h => ⟨h.1, huse h.2, h.2⟩⟩
    · rw [q2 n hn, show direct = _ from d2 ((q1 n).1 hn).2.2]
  · have key : ∀ n, ¬ remote.1 = ok n := fun n hok => hs (s3ReadTo_inv hok)
    have key' : ∀ n, ¬ direct.1 = ok n := by
      intro n hok
      obtain ⟨vsz, h2, items, h3⟩ := directReadTo_inv hok
      have h4 := directReadTo_fits h2 hok
      cases hc : chunkBytes p ds with
      | ok csz => exact hs ⟨csz, vsz, items, hc, h2, h3, h4⟩
      | _ => simp [direct, directReadTo, hc] at hok
    exact ⟨fun n => ⟨fun h => absurd h (key n), fun h => absurd h (key' n)⟩,
      fun n h => absurd h (key n)⟩

/-- C17 together with C01: an S3 read of a good selection of an object that stores the array `A`
succeeds with the bytes of the selected elements. -/
theorem C17_stored_partial {p : Profile} {io : Io} {file : List Byte} {ds : Dataset}
    {A : List Nat → List Byte} {ext : Extents} {start count : List Nat}
    {sort : List GItem → List GItem} {server : Server} {complete : List Request → List Request}
    {dst : List Byte} (h : Setup p io file ds A ext start count) (hg : Good p ds start count)
    (hpos : ∀ c ∈ ds.chunks, 0 < c.size) (hsrv : Serves file server)
    (hsort : ∀ l, SortedByAddr l (sort l)) (hcomp : ∀ l, (complete l).Perm l)
    (hd : count.prod * ds.dsize ≤ dst.length) :
    s3ReadTo p io.inflate ds sort server complete ext dst =
      (ok (count.prod * ds.dsize), selected A start count ++ dst.drop (count.prod * ds.dsize)) := by
  have hW : (2 : Nat) ^ 63 < W := by decide
  have hC : ds.chunkShape.prod * ds.dsize < W := by have := h.sizes.chunk; omega
  have hcp : count.prod * ds.dsize < W :=
    Nat.lt_of_le_of_lt (Nat.mul_le_mul_right _ (count_prod_le h.wf h.inb)) h.sizes.data
  have hk : Checked p ds ext := .inr ⟨start, count, h.sel, .inl ⟨h.wf, h.inb, hg, hcp, hC⟩⟩
  have hd1 := C01_direct_partial h hg hsort hd
  obtain ⟨a1, a2⟩ := C17_partial (sort' := sort) hk h.addr (fun c hc => ⟨hpos c hc, by
    have h1 := (h.stores.chunk c hc).1
    have h2 := h.sizes.file
    omega⟩) h.sizes.file h.opened hsrv hsort hsort hcomp dst
  rw [hd1] at a1 a2
  have e := (a1 _).2 rfl
  exact Prod.ext e (a2 _ e)

/-- An honest server. -/
def honest (file : List Byte) : Server := fun a b =>
  if a < file.length then some (206, (file.drop a).take (b + 1 - a)) else some (416, [])

theorem honest_serves (file : List Byte) : Serves file (honest file) := by
  refine ⟨fun a b _ h => ?_, fun a b s body h hs => ?_⟩
  · unfold honest; rw [if_pos h]
  · unfold honest at hs; rw [if_neg (by omega)] at hs; simp at hs; exact hs.1.symm

example (p : Profile) : Setup p Demo.io Demo.file Demo.ds Demo.A Demo.ext [1, 1] [2, 3] := Demo.setup p
example : ∀ c ∈ Demo.ds.chunks, 0 < c.size ∧ c.addr + c.size < W := by decide
example : Serves Demo.file (honest Demo.file) := honest_serves _
example : ∀ l : List Request, l.reverse.Perm l := fun l => l.reverse_perm

/-! ## C19 -/

/-- C19: against a server that does not make up bytes - it may ignore `Range` and answer `200` with the
whole object, answer with any other status, send too few or too many bytes, or fail, differently for
every request - a successful S3 read is exactly the read of the file. For checked reads and chunks
that are not empty. -/
theorem C19_partial {p : Profile} {io : Io} {file : List Byte} {ds : Dataset} {ext : Extents}
    {sort sort' : List GItem → List GItem} {server : Server}
    {complete : List Request → List Request} (hk : Checked p ds ext) (hdet : AddrDet ds)
    (hpos : ∀ c ∈ ds.chunks, 0 < c.size ∧ c.addr + c.size < W) (hlen : file.length < 2 ^ 63)
    (hf : io.file = some file) (hsrv : Truthful file server)
    (hsort : ∀ l, SortedByAddr l (sort l)) (hsort' : ∀ l, SortedByAddr l (sort' l))
    (hcomp : ∀ l, (complete l).Perm l) (dst : List Byte) (n : Nat)
    (hok : (s3ReadTo p io.inflate ds sort server complete ext dst).1 = ok n) :
    directReadTo p io ds sort' ext dst =
      s3ReadTo p io.inflate ds sort server complete ext dst := by
  obtain ⟨h1, h2⟩ := s3_core hk hdet hpos hlen hf hsrv hsort hsort' hcomp dst n hok
  exact Prod.ext (h1.trans hok.symm) h2.symm

/-- C19, the other direction: a successful read means that for every chunk the selection needs, the
server gave a usable answer for a range that covers the chunk: status `206`, or `200` for a range that
starts at the beginning of the object, and not too few bytes. So any other status, and any short body,
fails the read. -/
theorem C19_usable_partial {p : Profile} {inflate : List Byte → Option (List Byte)}
    {ds : Dataset} {ext : Extents} {start count : List Nat}
    {sort : List GItem → List GItem} {server : Server}
    {complete : List Request → List Request} (hwf : WF p ds) (hdet : AddrDet ds)
    (hsel : Selects ext ds.shape start count) (hb : InBounds start count ds.shape)
    (hg : Good p ds start count) (hcW : count.prod * ds.dsize < W)
    (hCW : ds.chunkShape.prod * ds.dsize < W)
    (hpos : ∀ c ∈ ds.chunks, 0 < c.size ∧ c.addr + c.size < W)
    (hsort : ∀ l, SortedByAddr l (sort l)) (hcomp : ∀ l, (complete l).Perm l) (dst : List Byte)
    (n : Nat) (hok : (s3ReadTo p inflate ds sort server complete ext dst).1 = ok n)
    (c : Chunk) (hc : Needs ds start count c) :
    ∃ a b, a ≤ c.addr ∧ c.addr + c.size ≤ b + 1 ∧ Usable server a b := by
  obtain ⟨items, hS, he⟩ := sliced_of_good hwf hsel hb hg hcW hCW
  obtain ⟨it, hit, rfl⟩ := (needs_iff hwf hb he hS.le c).1 hc
  obtain ⟨g, hgm, hge, -, -⟩ := mem_tile 0 hit
  have hp := (hsort (tile 0 items)).1
  have hgm' := hp.mem_iff.1 hgm
  have hmem : ∀ g ∈ sort (tile 0 items), g.chunk ∈ ds.chunks :=
    fun g hg => hS.mem _ (tile_mem (hp.mem_iff.2 hg))
  obtain ⟨reqs, hreqs, hinv⟩ := groupRequests_ok (p := p) (gs := sort (tile 0 items))
    (fun g hg => (hpos _ (hmem g hg)).2)
  unfold s3ReadTo at hok
  split at hok
  · rename_i csz vsz rs hpre
    unfold s3Prelude at hpre
    obtain ⟨a, h1, hpre⟩ := bind_eq_ok.1 hpre
    obtain ⟨b, h2, hpre⟩ := bind_eq_ok.1 hpre
    obtain ⟨_, h3, hpre⟩ := bind_eq_ok.1 hpre
    rw [hS.groups, ok_bind, hreqs, ok_bind] at hpre
    have hrs : rs = reqs := by have := Outcome.ok.inj hpre; simp at this; exact this.2.2.symm
    subst hrs
    obtain ⟨_, h4, -⟩ := bind_eq_ok.1 hok
    have h5 := loop_fst_ok h4
    -- the request of this chunk
    have hk : sliceKey g ∈ (rs.flatMap Request.slices).map sliceKey := by
      rw [hinv.keys]; exact List.mem_map_of_mem hgm'
    obtain ⟨g', hg', e⟩ := List.mem_map.1 hk
    obtain ⟨r, hr, hgr⟩ := List.mem_flatMap.1 hg'
    unfold Request.slices at hgr
    simp only [List.mem_flatMap, List.mem_map] at hgr
    obtain ⟨cs, hcs, s, hs, rfl⟩ := hgr
    simp only [sliceKey, Prod.mk.injEq] at e
    obtain ⟨g2, hg2, e2⟩ := hinv.mem r hr cs hcs
    have hrok : ReqOk' r := by
      refine ⟨hinv.good r hr, fun cs hcs => ?_, ?_⟩
      · obtain ⟨g3, hg3, e3⟩ := hinv.mem r hr cs hcs
        rw [← e3]; exact (hpos _ (hmem g3 hg3)).1
      · obtain ⟨init, c, q1, q2⟩ := (hinv.good r hr).last
        obtain ⟨g3, hg3, e3⟩ := hinv.mem r hr c (by rw [q1]; simp)
        rw [q2, ← e3]
        exact (hpos _ (hmem g3 hg3)).2
    have hin := hrok.toRequestOk.inside cs hcs
    have hlt := hrok.start_lt
    have hfetch : ∃ body, fetch p server r = ok body := by
      have hr' := (hcomp rs).mem_iff.2 hr
      obtain ⟨l1, l2, hl⟩ := List.append_of_mem hr'
      rw [hl] at h5
      simp only [List.flatMap_append, List.flatMap_cons, requestOps, List.cons_append,
        List.foldlM_append, List.foldlM_cons] at h5
      obtain ⟨s1, -, h5⟩ := bind_eq_ok.1 h5
      obtain ⟨s2, h6, -⟩ := bind_eq_ok.1 h5
      obtain ⟨body, h7, -⟩ := bind_eq_ok.1 h6
      exact ⟨body, h7⟩
    obtain ⟨body, hbody⟩ := hfetch
    obtain ⟨st, f1, f2, f3⟩ := (fetch_iff hrok).1 hbody
    have ha : cs.1.addr = it.chunk.addr := by rw [e.1, hge]
    have hz : cs.1.size = it.chunk.size := by
      rw [← e2]
      refine hdet _ (hmem g2 hg2) _ (hS.mem it hit) ?_
      rw [e2]; exact ha
    refine ⟨r.start, r.stop - 1, by omega, by omega, st, body, f1, f2, by omega⟩
  · rename_i x hx
    obtain ⟨a, ha, -⟩ := bind_eq_ok.1 hok
    exact absurd ha (by intro e; exact hx _ _ _ e)

/-- C19: if nothing the server says is usable (transport errors, statuses other than `206` and `200`,
`200` for ranges that do not begin at 0, too few bytes), a read that needs any chunk fails with an
error and leaves the destination as it was. -/
theorem C19_refused_partial {p : Profile} {inflate : List Byte → Option (List Byte)}
    {ds : Dataset} {ext : Extents} {start count : List Nat}
    {sort : List GItem → List GItem} {server : Server}
    {complete : List Request → List Request} (hwf : WF p ds)
    (hsel : Selects ext ds.shape start count) (hb : InBounds start count ds.shape)
    (hg : Good p ds start count) (hcW : count.prod * ds.dsize < W)
    (hCW : ds.chunkShape.prod * ds.dsize < W)
    (hpos : ∀ c ∈ ds.chunks, 0 < c.size ∧ c.addr + c.size < W)
    (hsort : ∀ l, SortedByAddr l (sort l)) (hcomp : ∀ l, (complete l).Perm l) (dst : List Byte)
    (hd : count.prod * ds.dsize ≤ dst.length) (hbad : ∀ a b, ¬ Usable server a b)
    (hne : 0 < count.prod) :
    s3ReadTo p inflate ds sort server complete ext dst = (err .http, dst) := by
  obtain ⟨items, hS, he⟩ := sliced_of_good hwf hsel hb hg hcW hCW
  have hp := (hsort (tile 0 items)).1
  have hmem : ∀ g ∈ sort (tile 0 items), g.chunk ∈ ds.chunks :=
    fun g hg => hS.mem _ (tile_mem (hp.mem_iff.2 hg))
  obtain ⟨reqs, hreqs, hinv⟩ := groupRequests_ok (p := p) (gs := sort (tile 0 items))
    (fun g hg => (hpos _ (hmem g hg)).2)
  have hpre : s3Prelude p ds sort ext dst.length =
      ok (ds.chunkShape.prod * ds.dsize, count.prod * ds.dsize, reqs) := by
    unfold s3Prelude
    rw [chunkBytes_ok hwf hCW, ok_bind, hS.req, ok_bind,
      show decide (count.prod * ds.dsize ≤ dst.length) = true by simpa using hd,
      ensure_true, ok_bind, hS.groups, ok_bind, hreqs, ok_bind]
  have hnil : reqs ≠ [] := by
    rintro rfl
    have hk := hinv.keys
    simp at hk
    rw [hk] at hp
    have hit : items = [] := by
      cases items with
      | nil => rfl
      | cons it its => have := hp.eq_nil; simp [tile] at this
    have ht := Enumerates.total he (by have := hb; unfold InBounds at this; omega)
    subst hit
    simp [total] at ht
    omega
  unfold s3ReadTo
  rw [hpre]
  simp only
  cases hcr : complete reqs with
  | nil =>
    have := hcomp reqs
    rw [hcr] at this
    exact absurd this.symm.eq_nil hnil
  | cons r rs =>
    have hr : r ∈ reqs := (hcomp reqs).mem_iff.1 (by rw [hcr]; simp)
    have hrok : ReqOk' r := by
      refine ⟨hinv.good r hr, fun cs hcs => ?_, ?_⟩
      · obtain ⟨g3, hg3, e3⟩ := hinv.mem r hr cs hcs
        rw [← e3]; exact (hpos _ (hmem g3 hg3)).1
      · obtain ⟨init, c, q1, q2⟩ := (hinv.good r hr).last
        obtain ⟨g3, hg3, e3⟩ := hinv.mem r hr c (by rw [q1]; simp)
        rw [q2, ← e3]
        exact (hpos _ (hmem g3 hg3)).2
    have hlt := hrok.start_lt
    have hfetch : fetch p server r = err .http := by
      have hn : ∀ body, fetch p server r ≠ ok body := by
        intro body hb'
        obtain ⟨s, f1, f2, f3⟩ := (fetch_iff hrok).1 hb'
        exact hbad r.start (r.stop - 1) ⟨s, body, f1, f2, by omega⟩
      revert hn
      unfold fetch
      rw [sub64_of_le (by omega), ok_bind]
      rw [show decide (r.start ≤ r.stop - 1) = true by simp; omega]
      simp only [assertP, if_true, ok_bind]
      cases server r.start (r.stop - 1) with
      | none => intro _; rfl
      | some sb =>
        obtain ⟨s, b⟩ := sb
        simp only [sub64_of_le (Nat.le_of_lt hlt), ok_bind, ensure]
        intro hn
        split
        · split
          · rename_i h1 h2
            rw [if_pos h1] at hn
            simp only [ok_bind] at hn
            rw [if_pos h2] at hn
            exact absurd rfl (hn b)
          · rfl
        · rfl
    rw [List.flatMap_cons]
    unfold requestOps
    rw [List.cons_append]
    unfold loop
    have : s3Step p inflate ds (ds.chunkShape.prod * ds.dsize) server ⟨[], 0, [], dst⟩ (.recv r) =
        err .http := by
      show (fetch p server r >>= _) = _
      rw [hfetch]; rfl
    rw [this]
    rfl

/-- A server that ignores `Range`. -/
def ignoresRange (file : List Byte) : Server := fun _ _ => some (200, file)

example : Truthful Demo.file (ignoresRange Demo.file) := by
  intro a b s body h
  unfold ignoresRange at h
  simp at h
  exact ⟨fun e => by omega, fun _ => by rw [← h.2]; exact List.prefix_refl _⟩
example : ∀ a b, ¬ Usable (fun _ _ => some (500, Demo.file)) a b := by
  rintro a b ⟨s, body, h, h1, -⟩
  simp at h
  omega

/-- Such a server is not enough for one chunk in the middle, and is for a chunk at the beginning: both
happen. -/
example (p : Profile) :
    (s3ReadTo p Demo.inflate Demo.ds id (ignoresRange Demo.file) id
      (.extent [.sliceCount 0 1, .sliceCount 0 1]) [7, 7, 7]) = (err .http, [7, 7, 7]) ∧
    (s3ReadTo p Demo.inflate Demo.ds id (ignoresRange Demo.file) id
      (.extent [.sliceCount 0 1, .sliceCount 2 1]) [7, 7, 7]) = (ok 2, [2, 100, 7]) := by
  cases p <;> decide +kernel

/-! ## C42 -/

/-- C42: whatever the tokio context of the caller, the blocking read has the outcome of the
asynchronous one: the context adds no panic. -/
theorem C42 {α : Type} (rt : Rt) (fut : Outcome α) : blockOn rt fut = fut := by
  cases rt <;> rfl

/-- What C42 rules out: blocking in place, as `StreamReader` does, panics in a current-thread
runtime. -/
example : blockInPlace .currentThread (ok 1) = panic .unimplemented := rfl

end Hidefix.Props
