import Verif.Proofs.WrappedPar
import Verif.Proofs.S3

/-!
# Release builds, whatever the slices: the S3 reader
-/

set_option autoImplicit false

namespace Hidefix.Proofs
open Hidefix Hidefix.Spec Outcome

/-- A slice of a chunk, placed. -/
abbrev segItem (c : Chunk) (s : Seg) : GItem := ⟨c, s.current, s.start, s.stop⟩

theorem copyStep_release {inflate : List Byte → Option (List Byte)} {ds : Dataset}
    {csz : Nat} {server : Server} {D : Chunk → Outcome (List Byte)} {st st' : S3St} {c : Chunk}
    {s : Seg} (hW : st.dst.length < W) (hD : D c = ok st.cache) :
    s3Step .release inflate ds csz server st (.copy s) = ok st' ↔
      Fine D ds.dsize st.dst.length (segItem c s) ∧
      st' = { st with dst := (blit st.dst (wrN D ds.dsize (segItem c s)).off
        (wrN D ds.dsize (segItem c s)).bytes) } := by
  have h := fun d' => pureStep_release (D := D) (dsz := ds.dsize) (dst := st.dst) (dst' := d')
    (g := segItem c s) hW
  have e : s3Step .release inflate ds csz server st (.copy s) =
      (pureStep .release D ds.dsize st.dst (segItem c s) >>= fun d => ok { st with dst := d }) := by
    unfold s3Step pureStep
    simp only [hD, ok_bind, mul64_release, debugAssert_release, Outcome.bind_assoc]
  rw [e, bind_eq_ok]
  simp only [h]
  constructor
  · rintro ⟨d, ⟨h1, rfl⟩, h2⟩; exact ⟨h1, (Outcome.ok.inj h2).symm⟩
  · rintro ⟨h1, rfl⟩; exact ⟨_, ⟨h1, rfl⟩, rfl⟩

theorem blit_lenN {D : Chunk → Outcome (List Byte)} {dsz : Nat} {g : GItem} {dst : List Byte}
    (h : Fine D dsz dst.length g) :
    (blit dst (wrN D dsz g).off (wrN D dsz g).bytes).length = dst.length :=
  blit_length (wrN_inRange h)

theorem applyWrites_lenN {D : Chunk → Outcome (List Byte)} {dsz : Nat} {gs : List GItem}
    {dst : List Byte} (h : ∀ g ∈ gs, Fine D dsz dst.length g) :
    (applyWrites dst (gs.map (wrN D dsz))).length = dst.length := by
  apply applyWrites_length
  intro w hw
  obtain ⟨g, hg, rfl⟩ := List.mem_map.1 hw
  exact wrN_inRange (h g hg)

theorem copyFold_release {inflate : List Byte → Option (List Byte)} {ds : Dataset}
    {csz : Nat} {server : Server} {D : Chunk → Outcome (List Byte)} {c : Chunk} {segs : List Seg}
    {st st' : S3St} (hW : st.dst.length < W) (hD : D c = ok st.cache) :
    (segs.map S3Op.copy).foldlM (s3Step .release inflate ds csz server) st = ok st' ↔
      (∀ s ∈ segs, Fine D ds.dsize st.dst.length (segItem c s)) ∧
      st' = { st with dst := (applyWrites st.dst ((segs.map (segItem c)).map (wrN D ds.dsize))) } := by
  induction segs generalizing st with
  | nil => simp [applyWrites, eq_comm]
  | cons s segs ih =>
    rw [List.map_cons, List.foldlM_cons, bind_eq_ok]
    simp only [copyStep_release (inflate := inflate) (csz := csz) (server := server) hW hD]
    constructor
    · rintro ⟨_, ⟨h1, rfl⟩, h2⟩
      have hlen := blit_lenN h1
      rw [ih (st := { st with dst := (blit st.dst (wrN D ds.dsize (segItem c s)).off
        (wrN D ds.dsize (segItem c s)).bytes) }) (by rw [hlen]; exact hW) hD] at h2
      simp only [hlen] at h2
      refine ⟨by simpa using ⟨h1, h2.1⟩, h2.2⟩
    · rintro ⟨h1, h2⟩
      simp only [List.mem_cons, forall_eq_or_imp] at h1
      have hlen := blit_lenN h1.1
      refine ⟨_, ⟨h1.1, rfl⟩, ?_⟩
      rw [ih (st := { st with dst := (blit st.dst (wrN D ds.dsize (segItem c s)).off
        (wrN D ds.dsize (segItem c s)).bytes) }) (by rw [hlen]; exact hW) hD]
      simp only [hlen]
      exact ⟨h1.2, h2⟩

theorem chunkFold_release {inflate : List Byte → Option (List Byte)} {ds : Dataset}
    {csz : Nat} {server : Server} {D : Chunk → Outcome (List Byte)} {body : List Byte} {base : Nat}
    {chunks : List (Chunk × List Seg)} {st : S3St} {d' : List Byte}
    (hdec : ∀ cs ∈ chunks, ∀ st : S3St, st.body = body → st.base = base →
      s3Step .release inflate ds csz server st (.decode cs.1) =
        (D cs.1 >>= fun v => ok { st with cache := v }))
    (hne : ∀ cs ∈ chunks, cs.2 ≠ [])
    (hb : st.body = body) (hs : st.base = base) (hW : st.dst.length < W) :
    (∃ st', (chunks.flatMap fun cs => S3Op.decode cs.1 :: cs.2.map S3Op.copy).foldlM
        (s3Step .release inflate ds csz server) st = ok st' ∧ st'.dst = d') ↔
      (∀ cs ∈ chunks, ∀ s ∈ cs.2, Fine D ds.dsize st.dst.length (segItem cs.1 s)) ∧
      d' = applyWrites st.dst ((chunks.flatMap fun cs => cs.2.map (segItem cs.1)).map
        (wrN D ds.dsize)) := by
  induction chunks generalizing st with
  | nil => simp [applyWrites, eq_comm]
  | cons cs chunks ih =>
    have hc := fun st st' => copyFold_release (st := st) (st' := st') (inflate := inflate) (csz := csz)
      (ds := ds) (server := server) (D := D) (c := cs.1) (segs := cs.2)
    have hds := hdec cs (by simp)
    have ih' := fun st => ih (st := st) (fun x hx => hdec x (by simp [hx]))
      (fun x hx => hne x (by simp [hx]))
    have hlen : (∀ s ∈ cs.2, Fine D ds.dsize st.dst.length (segItem cs.1 s)) →
        (applyWrites st.dst ((cs.2.map (segItem cs.1)).map (wrN D ds.dsize))).length = st.dst.length := by
      intro h
      apply applyWrites_lenN
      intro g hg
      obtain ⟨s, hs, rfl⟩ := List.mem_map.1 hg
      exact h s hs
    simp only [List.flatMap_cons, List.foldlM_append, List.cons_append, List.foldlM_cons,
      List.map_append, applyWrites_append]
    rw [hds st hb hs]
    constructor
    · rintro ⟨st', h, rfl⟩
      rw [Outcome.bind_assoc] at h
      obtain ⟨v, hv, h⟩ := bind_eq_ok.1 h
      rw [ok_bind] at h
      obtain ⟨st1, h1, h2⟩ := bind_eq_ok.1 h
      rw [hc { st with cache := v } _ hW hv] at h1
      obtain ⟨hr, rfl⟩ := h1
      have hl := hlen hr
      obtain ⟨hr', hd⟩ := (ih' _ (by exact hb) (by exact hs) (by simp only [hl]; exact hW)).1
        ⟨st', h2, rfl⟩
      simp only [hl] at hr'
      refine ⟨?_, hd⟩
      intro x hx
      rcases List.mem_cons.1 hx with rfl | hx
      · exact hr
      · exact hr' x hx
    · rintro ⟨hr, rfl⟩
      have hr0 := hr cs (by simp)
      obtain ⟨s0, hs0⟩ := List.exists_mem_of_ne_nil _ (hne cs (by simp))
      obtain ⟨v, hv, -⟩ := (hr0 s0 hs0).2
      have hl := hlen hr0
      obtain ⟨st', h1, h2⟩ := (ih' { st with cache := v, dst := (applyWrites st.dst
        ((cs.2.map (segItem cs.1)).map (wrN D ds.dsize))) } hb hs
        (by simp only [hl]; exact hW)).2 ⟨by simp only [hl]; exact fun x hx => hr x (by simp [hx]), rfl⟩
      refine ⟨st', ?_, h2⟩
      have hv' : D cs.1 = ok v := hv
      rw [hv', ok_bind, ok_bind, (hc { st with cache := v } _ hW hv').2 ⟨hr0, rfl⟩, ok_bind]
      exact h1

theorem s3Fold_release {io : Io} {ds : Dataset} {csz : Nat} {server : Server}
    {file : List Byte} {rs : List Request} {st : S3St} {d' : List Byte}
    (hf : file.length < 2 ^ 63) (hsrv : Truthful file server) (hr : ∀ r ∈ rs, ReqOk' r)
    (hW : st.dst.length < W) :
    (∃ st', (rs.flatMap requestOps).foldlM (s3Step .release io.inflate ds csz server) st = ok st' ∧
        st'.dst = d') ↔
      (∀ r ∈ rs, Usable server r.start (r.stop - 1)) ∧
      (∀ r ∈ rs, ∀ g ∈ Request.slices r, Fine (rawD .release io file ds csz) ds.dsize st.dst.length g) ∧
      d' = applyWrites st.dst ((rs.flatMap Request.slices).map
        (wrN (rawD .release io file ds csz) ds.dsize)) := by
  induction rs generalizing st with
  | nil => simp [applyWrites, eq_comm]
  | cons r rs ih =>
    have hro := hr r (by simp)
    have hlt := hro.start_lt
    have ih' := fun st => ih (st := st) (fun x hx => hr x (by simp [hx]))
    have hready : (∀ cs ∈ r.chunks, ∀ s ∈ cs.2,
        Fine (rawD .release io file ds csz) ds.dsize st.dst.length (segItem cs.1 s)) ↔
        ∀ g ∈ Request.slices r, Fine (rawD .release io file ds csz) ds.dsize st.dst.length g := by
      unfold Request.slices
      simp only [List.mem_flatMap, List.mem_map]
      constructor
      · rintro h g ⟨cs, h1, s, h2, rfl⟩; exact h cs h1 s h2
      · intro h cs h1 s h2; exact h _ ⟨cs, h1, s, h2, rfl⟩
    have hbody : ∀ body, fetch .release server r = ok body → body <+: file.drop r.start ∧
        r.stop - r.start ≤ body.length := by
      intro body hb
      obtain ⟨s, h1, h2, h3⟩ := (fetch_iff hro).1 hb
      refine ⟨?_, h3⟩
      rcases h2 with rfl | ⟨rfl, h0⟩
      · exact (hsrv _ _ _ _ h1).1 rfl
      · rw [h0]; exact (hsrv _ _ _ _ h1).2 rfl
    have hchunk : ∀ body, fetch .release server r = ok body → ∀ d1, _ := fun body hb d1 =>
      chunkFold_release (inflate := io.inflate) (ds := ds) (csz := csz) (server := server)
        (D := rawD .release io file ds csz) (body := body) (base := r.start) (chunks := r.chunks)
        (st := { st with body := body, base := r.start }) (d' := d1)
        (fun cs hcs st1 e1 e2 => decode_body hf (hbody body hb).1 (hbody body hb).2
          (hro.toRequestOk.inside cs hcs).1 (hro.toRequestOk.inside cs hcs).2 (hro.pos cs hcs) e1 e2)
        hro.used rfl rfl hW
    have huse : Usable server r.start (r.stop - 1) ↔ ∃ body, fetch .release server r = ok body := by
      unfold Usable
      rw [show r.stop - 1 + 1 - r.start = r.stop - r.start by omega]
      simp only [fetch_iff hro]
      exact exists_comm
    simp only [List.flatMap_cons, List.foldlM_append, requestOps, List.cons_append,
      List.foldlM_cons, List.map_append, applyWrites_append]
    have hrecv : s3Step .release io.inflate ds csz server st (.recv r) =
        (fetch .release server r >>= fun body => ok { st with body := body, base := r.start }) := rfl
    rw [hrecv]
    constructor
    · rintro ⟨st', h, rfl⟩
      rw [Outcome.bind_assoc] at h
      obtain ⟨body, hb, h⟩ := bind_eq_ok.1 h
      rw [ok_bind] at h
      obtain ⟨st1, h1, h2⟩ := bind_eq_ok.1 h
      obtain ⟨hr1, hd1⟩ := (hchunk body hb _).1 ⟨st1, h1, rfl⟩
      have hd1 : st1.dst = applyWrites st.dst
        ((Request.slices r).map (wrN (rawD .release io file ds csz) ds.dsize)) := hd1
      have hl : st1.dst.length = st.dst.length := by
        rw [hd1]; exact applyWrites_lenN (hready.1 hr1)
      obtain ⟨hu2, hr2, hd2⟩ := (ih' st1 (by rw [hl]; exact hW)).1 ⟨st', h2, rfl⟩
      rw [hl] at hr2
      rw [hd1] at hd2
      refine ⟨?_, ?_, hd2⟩
      · intro x hx
        rcases List.mem_cons.1 hx with rfl | hx
        · exact huse.2 ⟨body, hb⟩
        · exact hu2 x hx
      · intro x hx
        rcases List.mem_cons.1 hx with rfl | hx
        · exact hready.1 hr1
        · exact hr2 x hx
    · rintro ⟨hu, hrd, rfl⟩
      obtain ⟨body, hb⟩ := huse.1 (hu r (by simp))
      obtain ⟨st1, h1, hd1⟩ := (hchunk body hb _).2 ⟨hready.2 (hrd r (by simp)), rfl⟩
      have hd1 : st1.dst = applyWrites st.dst
        ((Request.slices r).map (wrN (rawD .release io file ds csz) ds.dsize)) := hd1
      have hl : st1.dst.length = st.dst.length := by
        rw [hd1]; exact applyWrites_lenN (hrd r (by simp))
      obtain ⟨st', h2, hd2⟩ := (ih' st1 (by rw [hl]; exact hW)).2
        ⟨fun x hx => hu x (by simp [hx]), by rw [hl]; exact fun x hx => hrd x (by simp [hx]),
          by rw [hd1]⟩
      refine ⟨st', ?_, hd2⟩
      rw [hb, ok_bind, ok_bind, h1, ok_bind]
      exact h2

theorem key_fun_release {io : Io} {ds : Dataset} {csz n : Nat} {file : List Byte}
    (hdet : AddrDet ds) : ∃ F : Nat × Nat × Nat × Nat → Prop × Write, ∀ g : GItem, g.chunk ∈ ds.chunks →
      F (sliceKey g) = (Fine (rawD .release io file ds csz) ds.dsize n g,
        wrN (rawD .release io file ds csz) ds.dsize g) := by
  classical
  let E : Nat → Outcome (List Byte) := fun a =>
    if h : ∃ c ∈ ds.chunks, c.addr = a then rawD .release io file ds csz h.choose else diverge
  have hE : ∀ c ∈ ds.chunks, rawD .release io file ds csz c = E c.addr := by
    intro c hc
    have h : ∃ c' ∈ ds.chunks, c'.addr = c.addr := ⟨c, hc, rfl⟩
    show _ = dite _ _ _
    rw [dif_pos h]
    exact rawD_local _ _ _ _ _ _ _ h.choose_spec.2.symm
      (hdet _ hc _ h.choose_spec.1 h.choose_spec.2.symm)
  let N : Nat × Nat × Nat × Nat → GItem := fun k => ⟨⟨k.1, 0, []⟩, k.2.1, k.2.2.1, k.2.2.2⟩
  refine ⟨fun k => (Tame 1 n (norm ds.dsize (N k)) ∧
      (∃ v, E k.1 = ok v ∧ (norm ds.dsize (N k)).stop * 1 ≤ v.length),
    ⟨(norm ds.dsize (N k)).current * 1, part 1 (valOf [] (E k.1)) (norm ds.dsize (N k)).start
      (norm ds.dsize (N k)).stop⟩), fun g hg => ?_⟩
  have ht : Tame 1 n (norm ds.dsize (N (sliceKey g))) ↔ Tame 1 n (norm ds.dsize g) :=
    ⟨fun h => ⟨h.le, h.lt, h.fits⟩, fun h => ⟨h.le, h.lt, h.fits⟩⟩
  have hg' := hE g.chunk hg
  simp only [Fine, ht]
  simp only [sliceKey, Ready, wrN, wr, norm, hg', N]

/-- An S3 read against a truthful server in a release build. -/
theorem s3ReadTo_release {io : Io} {file : List Byte} {ds : Dataset} {csz : Nat}
    {sort : List GItem → List GItem} {server : Server} {complete : List Request → List Request}
    {ext : Extents} {items : List Item} {vsz : Nat} {dst : List Byte} (hdet : AddrDet ds)
    (hsort : ∀ l : List GItem, l.Perm (sort l)) (hcomp : ∀ l, (complete l).Perm l)
    (hf : file.length < 2 ^ 63) (hsrv : Truthful file server)
    (hpos : ∀ c ∈ ds.chunks, 0 < c.size ∧ c.addr + c.size < W)
    (hc : chunkBytes .release ds = ok csz) (hs : ds.chunkSlices .release ext = ok ⟨items, ok ()⟩)
    (hv : reqBytes .release ds ext = ok vsz) (hn : vsz ≤ dst.length) (hW : dst.length < W) :
    ∃ gs reqs, groupRequests .release (sort gs) = ok reqs ∧ (∀ r ∈ reqs, ReqOk' r) ∧
      ReqInv (sort gs) reqs ∧ groupScan .release 0 items = ok gs ∧
      (∀ n, (s3ReadTo .release io.inflate ds sort server complete ext dst).1 = ok n ↔
        n = vsz ∧ (∀ r ∈ reqs, Usable server r.start (r.stop - 1)) ∧
        FineAll (rawD .release io file ds csz) ds.dsize dst.length items) ∧
      (∀ n, (s3ReadTo .release io.inflate ds sort server complete ext dst).1 = ok n →
        (s3ReadTo .release io.inflate ds sort server complete ext dst).2 =
          blit dst 0 (items.flatMap (bytesN (rawD .release io file ds csz) ds.dsize))) := by
  obtain ⟨gs, hgu, hgs⟩ := groupUnsorted_release hs
  have hst := chunkSlices_start_lt hs
  have hp := hsort gs
  have hmem : ∀ g ∈ sort gs, g.chunk ∈ ds.chunks := fun g hg => groupScan_mem hs hgs g (hp.mem_iff.2 hg)
  obtain ⟨f1, -⟩ := fine_iff (D := rawD .release io file ds csz) (dsz := ds.dsize) hW hst hgs
  obtain ⟨reqs, hreqs, hinv⟩ := groupRequests_ok (p := .release) (gs := sort gs)
    (fun g hg => (hpos _ (hmem g hg)).2)
  have hcm : ∀ r ∈ reqs, ∀ cs ∈ r.chunks, cs.1 ∈ ds.chunks := by
    intro r hr cs hcs
    obtain ⟨g, hg, e⟩ := hinv.mem r hr cs hcs
    rw [← e]; exact hmem g hg
  have hok : ∀ r ∈ reqs, ReqOk' r := by
    intro r hr
    refine ⟨hinv.good r hr, fun cs hcs => (hpos _ (hcm r hr cs hcs)).1, ?_⟩
    obtain ⟨init, c, h1, h2⟩ := (hinv.good r hr).last
    rw [h2]
    exact (hpos _ (hcm r hr c (by rw [h1]; simp))).2
  have hsm' : ∀ g ∈ reqs.flatMap Request.slices, g.chunk ∈ ds.chunks := by
    intro g hg
    obtain ⟨r, hr, hg⟩ := List.mem_flatMap.1 hg
    unfold Request.slices at hg
    simp only [List.mem_flatMap, List.mem_map] at hg
    obtain ⟨cs, h1, s, h2, rfl⟩ := hg
    exact hcm r hr cs h1
  obtain ⟨F, hF⟩ := key_fun_release (io := io) (csz := csz) (n := dst.length) (file := file) hdet
  have hwr : (reqs.flatMap Request.slices).map (wrN (rawD .release io file ds csz) ds.dsize) =
      (sort gs).map (wrN (rawD .release io file ds csz) ds.dsize) := by
    have e1 : (reqs.flatMap Request.slices).map (wrN (rawD .release io file ds csz) ds.dsize) =
        ((reqs.flatMap Request.slices).map sliceKey).map fun k => (F k).2 := by
      rw [List.map_map]
      apply List.map_congr_left
      intro g hg
      simp [hF g (hsm' g hg)]
    have e2 : (sort gs).map (wrN (rawD .release io file ds csz) ds.dsize) =
        ((sort gs).map sliceKey).map fun k => (F k).2 := by
      rw [List.map_map]
      apply List.map_congr_left
      intro g hg
      simp [hF g (hmem g hg)]
    rw [e1, e2, hinv.keys]
  have hcr := hcomp reqs
  have hrd : (∀ r ∈ complete reqs, ∀ g ∈ Request.slices r,
      Fine (rawD .release io file ds csz) ds.dsize dst.length g) ↔
      FineAll (rawD .release io file ds csz) ds.dsize dst.length items := by
    rw [← f1]
    have hpr : ∀ g : GItem, g.chunk ∈ ds.chunks →
        (Fine (rawD .release io file ds csz) ds.dsize dst.length g ↔ (F (sliceKey g)).1) := by
      intro g hg; rw [hF g hg]
    constructor
    · intro hh g hg
      have hg1 := hp.mem_iff.1 hg
      have : sliceKey g ∈ (reqs.flatMap Request.slices).map sliceKey := by
        rw [hinv.keys]; exact List.mem_map_of_mem hg1
      obtain ⟨g', hg', e⟩ := List.mem_map.1 this
      obtain ⟨r, hr, hgr⟩ := List.mem_flatMap.1 hg'
      rw [hpr g (hmem g hg1), ← e, ← hpr g' (hsm' g' hg')]
      exact hh r (hcr.mem_iff.2 hr) g' hgr
    · intro hh r hr g hg
      have hgm := List.mem_flatMap.2 ⟨r, hcr.mem_iff.1 hr, hg⟩
      have : sliceKey g ∈ (sort gs).map sliceKey := by
        rw [← hinv.keys]; exact List.mem_map_of_mem hgm
      obtain ⟨g', hg', e⟩ := List.mem_map.1 this
      rw [hpr g (hsm' g hgm), ← e, ← hpr g' (hmem g' hg')]
      exact hh g' (hp.mem_iff.2 hg')
  have hfold := fun d' => s3Fold_release (io := io) (ds := ds) (csz := csz)
    (server := server) (file := file) (rs := complete reqs) (st := ⟨[], 0, [], dst⟩) (d' := d') hf hsrv
    (fun r hr => hok r (hcr.mem_iff.1 hr)) hW
  have hwp : (((complete reqs).flatMap Request.slices).map
      (wrN (rawD .release io file ds csz) ds.dsize)).Perm
      (gs.map (wrN (rawD .release io file ds csz) ds.dsize)) := by
    refine ((hcr.flatMap_right _).map _).trans ?_
    rw [hwr]
    exact hp.symm.map _
  have hpre : s3Prelude .release ds sort ext dst.length = ok (csz, vsz, reqs) := by
    unfold s3Prelude Dataset.groupChunkSlices
    rw [hc, ok_bind, hv, ok_bind, show decide (vsz ≤ dst.length) = true by simpa using hn,
      ensure_true, ok_bind, hgu, ok_bind, ok_bind, hreqs, ok_bind]
  refine ⟨gs, reqs, hreqs, hok, hinv, hgs, ?_⟩
  unfold s3ReadTo
  rw [hpre]
  simp only
  have huse : (∀ r ∈ complete reqs, Usable server r.start (r.stop - 1)) ↔
      ∀ r ∈ reqs, Usable server r.start (r.stop - 1) :=
    ⟨fun hh r hr => hh r (hcr.mem_iff.2 hr), fun hh r hr => hh r (hcr.mem_iff.1 hr)⟩
  constructor
  · intro n
    constructor
    · intro ho
      obtain ⟨_, h1, h2⟩ := bind_eq_ok.1 ho
      obtain ⟨hu, hr, -⟩ := (hfold _).1 ⟨_, loop_fst_ok h1, rfl⟩
      exact ⟨(Outcome.ok.inj h2).symm, huse.1 hu, hrd.1 hr⟩
    · rintro ⟨rfl, hu, hr⟩
      obtain ⟨st', h1, -⟩ := (hfold _).2 ⟨huse.2 hu, hrd.2 hr, rfl⟩
      rw [loop_ok_iff.2 h1]
      rfl
  · intro n ho
    obtain ⟨_, h1, h2⟩ := bind_eq_ok.1 ho
    obtain ⟨hu, hr, hd⟩ := (hfold _).1 ⟨_, loop_fst_ok h1, rfl⟩
    rw [hd]
    exact fine_writes hW hst hgs (hrd.1 hr) hwp

end Hidefix.Proofs
