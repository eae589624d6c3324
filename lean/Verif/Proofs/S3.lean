import Verif.Proofs.Requests
import Verif.Proofs.Reads

/-!
# The S3 reader
-/

set_option autoImplicit false

namespace Hidefix.Proofs
open Hidefix Hidefix.Spec Outcome

/-- A request as the reader makes them, for chunks that are not empty. -/
structure ReqOk' (r : Request) : Prop extends RequestOk r where
  pos : ∀ cs ∈ r.chunks, 0 < cs.1.size
  lt : r.stop < W

theorem ReqOk'.start_lt {r : Request} (h : ReqOk' r) : r.start < r.stop := by
  obtain ⟨c, rest, hc, -⟩ := h.first
  have h1 := h.toRequestOk.inside c (by rw [hc]; simp)
  have h2 := h.pos c (by rw [hc]; simp)
  omega

theorem fetch_iff {p : Profile} {server : Server} {r : Request} {body : List Byte}
    (h : ReqOk' r) :
    fetch p server r = ok body ↔ ∃ s, server r.start (r.stop - 1) = some (s, body) ∧
      (s = 206 ∨ s = 200 ∧ r.start = 0) ∧ r.stop - r.start ≤ body.length := by
  have hlt := h.start_lt
  unfold fetch
  rw [sub64_of_le (by omega), ok_bind]
  rw [show decide (r.start ≤ r.stop - 1) = true by simp; omega]
  simp only [assertP, if_true, ok_bind]
  cases hs : server r.start (r.stop - 1) with
  | none => simp
  | some sb =>
    obtain ⟨s, b⟩ := sb
    simp only [sub64_of_le (Nat.le_of_lt hlt), ok_bind]
    by_cases h1 : s = 206 ∨ s = 200 ∧ r.start = 0
    · have : (s == 206 || (s == 200 && r.start == 0)) = true := by
        simpa using h1
      rw [this]
      simp only [ensure, if_true, ok_bind]
      by_cases h2 : r.stop - r.start ≤ b.length
      · simp only [h2, decide_true, if_true, ok_bind]
        constructor
        · intro hh; obtain rfl := Outcome.ok.inj hh; exact ⟨s, rfl, h1, h2⟩
        · rintro ⟨s', e, -, -⟩
          simp at e; rw [e.2]
      · simp only [h2, decide_false]
        constructor
        · intro hh; simp at hh
        · rintro ⟨s', e, -, h3⟩
          simp at e; rw [e.2] at h2; exact absurd h3 h2
    · have : (s == 206 || (s == 200 && r.start == 0)) = false := by
        simpa using h1
      rw [this]
      constructor
      · intro hh; simp [ensure] at hh
      · rintro ⟨s', e, h3, -⟩
        simp at e; rw [← e.1] at h3; exact absurd h3 h1

/-- One slice copied from the decoded chunk. -/
theorem copyStep_iff {p : Profile} {inflate : List Byte → Option (List Byte)} {ds : Dataset}
    {csz n : Nat} {server : Server} {D : Chunk → Outcome (List Byte)} {st st' : S3St} {c : Chunk}
    {s : Seg} (ht : Tame ds.dsize n ⟨c, s.current, s.start, s.stop⟩) (hn : n ≤ st.dst.length)
    (hW : n < W) (hD : D c = ok st.cache) :
    s3Step p inflate ds csz server st (.copy s) = ok st' ↔
      Ready D ds.dsize c s.stop ∧
      st' = { st with dst := (blit st.dst (wr D ds.dsize ⟨c, s.current, s.start, s.stop⟩).off
        (wr D ds.dsize ⟨c, s.current, s.start, s.stop⟩).bytes) } := by
  obtain ⟨hle, hlt, hfit⟩ := ht
  simp only at hle hlt hfit
  have hm : s.start * ds.dsize ≤ s.stop * ds.dsize := Nat.mul_le_mul_right _ hle
  have hd : s.stop * ds.dsize - s.start * ds.dsize = (s.stop - s.start) * ds.dsize :=
    (Nat.sub_mul _ _ _).symm
  rw [Nat.add_mul] at hfit
  unfold s3Step
  simp only
  rw [mul64_of_lt (by omega), ok_bind, mul64_of_lt hlt, ok_bind, mul64_of_lt (by omega), ok_bind,
    show decide (s.start * ds.dsize ≤ s.stop * ds.dsize) = true by simpa using hm,
    debugAssert_true, ok_bind, sub64_of_le hm, hd]
  simp only [ok_bind]
  rw [add64_of_lt (by omega)]
  simp only [ok_bind]
  have key := slice_copy (p := p) (v := st.cache) (dst := st.dst) (cur := s.current * ds.dsize) hle
    (dsz := ds.dsize) (by omega)
  rw [bind_eq_ok]
  constructor
  · rintro ⟨u, h0, h⟩
    obtain ⟨src, h1, h⟩ := bind_eq_ok.1 h
    obtain ⟨d, h2, h⟩ := bind_eq_ok.1 h
    have hb : s.stop * ds.dsize ≤ st.cache.length := by
      unfold sliceOf at h1
      split at h1
      · omega
      · simp at h1
    have hk := (key d).1 (by
      rw [show decide (s.start * ds.dsize ≤ st.cache.length) = true by simp; omega,
        show decide (s.stop * ds.dsize ≤ st.cache.length) = true by simp; omega,
        debugAssert_true, ok_bind, ok_bind, h1, ok_bind, h2])
    refine ⟨⟨_, hD, hk.1⟩, ?_⟩
    rw [← Outcome.ok.inj h, hk.2]
    simp [wr, hD, valOf]
  · rintro ⟨⟨v, hv, hb⟩, rfl⟩
    rw [hD] at hv
    obtain rfl := Outcome.ok.inj hv
    have hk := (key _).2 ⟨hb, rfl⟩
    obtain ⟨_, -, hk⟩ := bind_eq_ok.1 hk
    obtain ⟨_, hk0, hk⟩ := bind_eq_ok.1 hk
    obtain ⟨src, hk1, hk⟩ := bind_eq_ok.1 hk
    refine ⟨_, hk0, ?_⟩
    rw [hk1, ok_bind, hk, ok_bind]
    simp [wr, hD, valOf]

theorem blit_len {D : Chunk → Outcome (List Byte)} {dsz n : Nat} {g : GItem} {dst : List Byte}
    (ht : Tame dsz n g) (hn : n ≤ dst.length) :
    (blit dst (wr D dsz g).off (wr D dsz g).bytes).length = dst.length :=
  blit_length (Nat.le_trans (wr_inRange ht) hn)

/-- The slices of one chunk. -/
theorem copyFold_iff {p : Profile} {inflate : List Byte → Option (List Byte)} {ds : Dataset}
    {csz n : Nat} {server : Server} {D : Chunk → Outcome (List Byte)} {c : Chunk}
    {segs : List Seg} {st st' : S3St}
    (ht : ∀ s ∈ segs, Tame ds.dsize n ⟨c, s.current, s.start, s.stop⟩) (hn : n ≤ st.dst.length)
    (hW : n < W) (hD : D c = ok st.cache) :
    (segs.map S3Op.copy).foldlM (s3Step p inflate ds csz server) st = ok st' ↔
      (∀ s ∈ segs, Ready D ds.dsize c s.stop) ∧
      st' = { st with dst := (applyWrites st.dst
        (segs.map fun s => wr D ds.dsize ⟨c, s.current, s.start, s.stop⟩)) } := by
  induction segs generalizing st with
  | nil => simp [applyWrites, eq_comm]
  | cons s segs ih =>
    rw [List.map_cons, List.foldlM_cons, bind_eq_ok]
    simp only [copyStep_iff (p := p) (inflate := inflate) (csz := csz) (server := server)
      (ht s (by simp)) hn hW hD]
    have hlen := blit_len (D := D) (ht s (by simp)) hn
    have ih' := ih (st := { st with dst := (blit st.dst
      (wr D ds.dsize ⟨c, s.current, s.start, s.stop⟩).off
      (wr D ds.dsize ⟨c, s.current, s.start, s.stop⟩).bytes) })
      (fun x hx => ht x (by simp [hx])) (by rw [hlen]; exact hn) hD
    constructor
    · rintro ⟨_, ⟨h1, rfl⟩, h2⟩
      rw [ih'] at h2
      exact ⟨by simpa using ⟨h1, h2.1⟩, h2.2⟩
    · rintro ⟨h1, h2⟩
      simp only [List.mem_cons, forall_eq_or_imp] at h1
      exact ⟨_, ⟨h1.1, rfl⟩, ih'.2 ⟨h1.2, h2⟩⟩

/-- The chunks of one response. -/
theorem chunkFold_iff {p : Profile} {inflate : List Byte → Option (List Byte)} {ds : Dataset}
    {csz n : Nat} {server : Server} {D : Chunk → Outcome (List Byte)} {body : List Byte} {base : Nat}
    {chunks : List (Chunk × List Seg)} {st : S3St} {d' : List Byte}
    (hdec : ∀ cs ∈ chunks, ∀ st : S3St, st.body = body → st.base = base →
      s3Step p inflate ds csz server st (.decode cs.1) = (D cs.1 >>= fun v => ok { st with cache := v }))
    (ht : ∀ cs ∈ chunks, ∀ s ∈ cs.2, Tame ds.dsize n ⟨cs.1, s.current, s.start, s.stop⟩)
    (hne : ∀ cs ∈ chunks, cs.2 ≠ [])
    (hb : st.body = body) (hs : st.base = base) (hn : n ≤ st.dst.length) (hW : n < W) :
    (∃ st', (chunks.flatMap fun cs => S3Op.decode cs.1 :: cs.2.map S3Op.copy).foldlM
        (s3Step p inflate ds csz server) st = ok st' ∧ st'.dst = d') ↔
      (∀ cs ∈ chunks, ∀ s ∈ cs.2, Ready D ds.dsize cs.1 s.stop) ∧
      d' = applyWrites st.dst ((chunks.flatMap fun cs => cs.2.map fun s =>
        (⟨cs.1, s.current, s.start, s.stop⟩ : GItem)).map (wr D ds.dsize)) := by
  induction chunks generalizing st with
  | nil => simp [applyWrites, eq_comm]
  | cons cs chunks ih =>
    have hc := fun st st' => copyFold_iff (st := st) (st' := st') (p := p) (inflate := inflate) (csz := csz) (server := server) (D := D)
      (c := cs.1) (segs := cs.2) (n := n) (ht cs (by simp))
    have hds := hdec cs (by simp)
    have hlen : (applyWrites st.dst
        (cs.2.map fun s => wr D ds.dsize ⟨cs.1, s.current, s.start, s.stop⟩)).length =
        st.dst.length := by
      apply applyWrites_length
      intro w hw
      obtain ⟨s, hs, rfl⟩ := List.mem_map.1 hw
      exact Nat.le_trans (wr_inRange (ht cs (by simp) s hs)) hn
    have ih' := fun st => ih (st := st) (fun x hx => hdec x (by simp [hx]))
      (fun x hx => ht x (by simp [hx])) (fun x hx => hne x (by simp [hx]))
    simp only [List.flatMap_cons, List.foldlM_append, List.cons_append, List.foldlM_cons,
      List.map_append, applyWrites_append, List.map_map]
    rw [hds st hb hs]
    constructor
    · rintro ⟨st', h, rfl⟩
      rw [Outcome.bind_assoc] at h
      obtain ⟨v, hv, h⟩ := bind_eq_ok.1 h
      rw [ok_bind] at h
      obtain ⟨st1, h1, h2⟩ := bind_eq_ok.1 h
      rw [hc { st with cache := v } _ hn hW hv] at h1
      obtain ⟨hr, rfl⟩ := h1
      obtain ⟨hr', hd⟩ := (ih' _ (by exact hb) (by exact hs) (by rw [hlen]; exact hn)).1 ⟨st', h2, rfl⟩
      refine ⟨?_, hd⟩
      intro x hx
      rcases List.mem_cons.1 hx with rfl | hx
      · exact hr
      · exact hr' x hx
    · rintro ⟨hr, rfl⟩
      have hr0 := hr cs (by simp)
      obtain ⟨s0, hs0⟩ := List.exists_mem_of_ne_nil _ (hne cs (by simp))
      obtain ⟨v, hv, -⟩ := hr0 s0 hs0
      obtain ⟨st', h1, h2⟩ := (ih' { st with cache := v, dst := (applyWrites st.dst
        (cs.2.map fun s => wr D ds.dsize ⟨cs.1, s.current, s.start, s.stop⟩)) } hb hs
        (by rw [hlen]; exact hn)).2 ⟨fun x hx => hr x (by simp [hx]), rfl⟩
      refine ⟨st', ?_, h2⟩
      rw [hv, ok_bind, ok_bind, (hc { st with cache := v } _ hn hW hv).2 ⟨hr0, rfl⟩, ok_bind]
      exact h1

/-- A chunk decoded from a response is the chunk decoded from the file. -/
theorem decode_body {p : Profile} {io : Io} {ds : Dataset} {csz : Nat} {server : Server}
    {file body : List Byte} {r : Request} {c : Chunk} {st : S3St} (hf : file.length < 2 ^ 63)
    (hbody : body <+: file.drop r.start) (hlen : r.stop - r.start ≤ body.length)
    (h1 : r.start ≤ c.addr) (h2 : c.addr + c.size ≤ r.stop) (hpos : 0 < c.size)
    (hb : st.body = body) (hs : st.base = r.start) :
    s3Step p io.inflate ds csz server st (.decode c) =
      (rawD p io file ds csz c >>= fun v => ok { st with cache := v }) := by
  obtain ⟨rest, hrest⟩ := hbody
  have hfl : r.stop ≤ file.length := by
    have := congrArg List.length hrest
    simp at this
    omega
  have hW : (2 : Nat) ^ 63 < W := by decide
  have hsl : (body.drop (c.addr - r.start)).take c.size = (file.drop c.addr).take c.size := by
    have e : file.drop c.addr = (file.drop r.start).drop (c.addr - r.start) := by
      rw [List.drop_drop]; congr 1; omega
    rw [e, ← hrest, List.drop_append_of_le_length (by omega), List.take_append_of_le_length
      (by rw [List.length_drop]; omega)]
  unfold s3Step rawD readChunk
  simp only
  rw [hs, hb, sub64_of_le h1, ok_bind, add64_of_lt (by omega), ok_bind]
  unfold sliceOf
  rw [if_pos ⟨by omega, by omega⟩, ok_bind, Nat.add_sub_cancel_left, hsl]
  unfold allocOk
  rw [if_pos (by omega), ok_bind]
  unfold readRaw
  rw [if_neg (by omega), if_pos (by omega), ok_bind]

/-- All responses. -/
theorem s3Fold_iff {p : Profile} {io : Io} {ds : Dataset} {csz n : Nat} {server : Server}
    {file : List Byte} {rs : List Request} {st : S3St} {d' : List Byte}
    (hf : file.length < 2 ^ 63) (hsrv : Truthful file server) (hr : ∀ r ∈ rs, ReqOk' r)
    (ht : ∀ r ∈ rs, ∀ g ∈ Request.slices r, Tame ds.dsize n g) (hn : n ≤ st.dst.length) (hW : n < W) :
    (∃ st', (rs.flatMap requestOps).foldlM (s3Step p io.inflate ds csz server) st = ok st' ∧
        st'.dst = d') ↔
      (∀ r ∈ rs, Usable server r.start (r.stop - 1)) ∧
      (∀ r ∈ rs, ∀ g ∈ Request.slices r, Ready (rawD p io file ds csz) ds.dsize g.chunk g.stop) ∧
      d' = applyWrites st.dst ((rs.flatMap Request.slices).map (wr (rawD p io file ds csz) ds.dsize)) := by
  induction rs generalizing st with
  | nil => simp [applyWrites, eq_comm]
  | cons r rs ih =>
    have hro := hr r (by simp)
    have hlt := hro.start_lt
    have hlen : (applyWrites st.dst
        ((Request.slices r).map (wr (rawD p io file ds csz) ds.dsize))).length = st.dst.length := by
      apply applyWrites_length
      intro w hw
      obtain ⟨g, hg, rfl⟩ := List.mem_map.1 hw
      exact Nat.le_trans (wr_inRange (ht r (by simp) g hg)) hn
    have ih' := fun st => ih (st := st) (fun x hx => hr x (by simp [hx]))
      (fun x hx => ht x (by simp [hx]))
    have hready : (∀ cs ∈ r.chunks, ∀ s ∈ cs.2, Ready (rawD p io file ds csz) ds.dsize cs.1 s.stop) ↔
        ∀ g ∈ Request.slices r, Ready (rawD p io file ds csz) ds.dsize g.chunk g.stop := by
      unfold Request.slices
      simp only [List.mem_flatMap, List.mem_map]
      constructor
      · rintro h g ⟨cs, h1, s, h2, rfl⟩; exact h cs h1 s h2
      · intro h cs h1 s h2; exact h _ ⟨cs, h1, s, h2, rfl⟩
    have ht' : ∀ cs ∈ r.chunks, ∀ s ∈ cs.2, Tame ds.dsize n ⟨cs.1, s.current, s.start, s.stop⟩ := by
      intro cs h1 s h2
      apply ht r (by simp)
      unfold Request.slices
      simp only [List.mem_flatMap, List.mem_map]
      exact ⟨cs, h1, s, h2, rfl⟩
    have hbody : ∀ body, fetch p server r = ok body → body <+: file.drop r.start ∧
        r.stop - r.start ≤ body.length := by
      intro body hb
      obtain ⟨s, h1, h2, h3⟩ := (fetch_iff hro).1 hb
      refine ⟨?_, h3⟩
      rcases h2 with rfl | ⟨rfl, h0⟩
      · exact (hsrv _ _ _ _ h1).1 rfl
      · rw [h0]; exact (hsrv _ _ _ _ h1).2 rfl
    have hchunk : ∀ body, fetch p server r = ok body → ∀ d1, _ := fun body hb d1 =>
      chunkFold_iff (p := p) (inflate := io.inflate) (ds := ds) (csz := csz) (server := server)
        (D := rawD p io file ds csz) (n := n) (body := body) (base := r.start) (chunks := r.chunks)
        (st := { st with body := body, base := r.start }) (d' := d1)
        (fun cs hcs st1 e1 e2 => decode_body hf (hbody body hb).1 (hbody body hb).2
          (hro.toRequestOk.inside cs hcs).1 (hro.toRequestOk.inside cs hcs).2 (hro.pos cs hcs) e1 e2)
        ht' hro.used rfl rfl hn hW
    have huse : Usable server r.start (r.stop - 1) ↔ ∃ body, fetch p server r = ok body := by
      unfold Usable
      rw [show r.stop - 1 + 1 - r.start = r.stop - r.start by omega]
      simp only [fetch_iff hro]
      exact exists_comm
    simp only [List.flatMap_cons, List.foldlM_append, requestOps, List.cons_append,
      List.foldlM_cons, List.map_append, applyWrites_append]
    have hrecv : s3Step p io.inflate ds csz server st (.recv r) =
        (fetch p server r >>= fun body => ok { st with body := body, base := r.start }) := rfl
    rw [hrecv]
    constructor
    · rintro ⟨st', h, rfl⟩
      rw [Outcome.bind_assoc] at h
      obtain ⟨body, hb, h⟩ := bind_eq_ok.1 h
      rw [ok_bind] at h
      obtain ⟨st1, h1, h2⟩ := bind_eq_ok.1 h
      obtain ⟨hr1, hd1⟩ := (hchunk body hb _).1 ⟨st1, h1, rfl⟩
      have hd1 : st1.dst = applyWrites st.dst
        ((Request.slices r).map (wr (rawD p io file ds csz) ds.dsize)) := hd1
      obtain ⟨hu2, hr2, hd2⟩ := (ih' st1 (by rw [hd1, hlen]; exact hn)).1 ⟨st', h2, rfl⟩
      rw [hd1] at hd2
      refine ⟨?_, ?_, hd2⟩
      · intro x hx
        rcases List.mem_cons.1 hx with rfl | hx
        · exact huse.2 ⟨body, hb⟩
        · exact hu2 x hx
      · intro x hx
        rcases List.mem_cons.1 hx with rfl | hx
        · exact hready.1 hr1
        · exact hr2 x hx
    · rintro ⟨hu, hrd, rfl⟩
      obtain ⟨body, hb⟩ := huse.1 (hu r (by simp))
      obtain ⟨st1, h1, hd1⟩ := (hchunk body hb _).2 ⟨hready.2 (hrd r (by simp)), rfl⟩
      have hd1 : st1.dst = applyWrites st.dst
        ((Request.slices r).map (wr (rawD p io file ds csz) ds.dsize)) := hd1
      obtain ⟨st', h2, hd2⟩ := (ih' st1 (by rw [hd1, hlen]; exact hn)).2
        ⟨fun x hx => hu x (by simp [hx]), fun x hx => hrd x (by simp [hx]), by rw [hd1]⟩
      refine ⟨st', ?_, hd2⟩
      rw [hb, ok_bind, ok_bind, h1, ok_bind]
      exact h2

/-- The decoded chunk is a function of the address. -/
theorem key_fun {p : Profile} {io : Io} {ds : Dataset} {csz : Nat} {file : List Byte}
    (hdet : AddrDet ds) : ∃ F : Nat × Nat × Nat × Nat → Prop × Write, ∀ g : GItem, g.chunk ∈ ds.chunks →
      F (sliceKey g) = (Ready (rawD p io file ds csz) ds.dsize g.chunk g.stop,
        wr (rawD p io file ds csz) ds.dsize g) := by
  classical
  let E : Nat → Outcome (List Byte) := fun a =>
    if h : ∃ c ∈ ds.chunks, c.addr = a then rawD p io file ds csz h.choose else diverge
  have hE : ∀ c ∈ ds.chunks, rawD p io file ds csz c = E c.addr := by
    intro c hc
    have h : ∃ c' ∈ ds.chunks, c'.addr = c.addr := ⟨c, hc, rfl⟩
    show _ = dite _ _ _
    rw [dif_pos h]
    exact rawD_local _ _ _ _ _ _ _ h.choose_spec.2.symm
      (hdet _ hc _ h.choose_spec.1 h.choose_spec.2.symm)
  refine ⟨fun k => ((∃ v, E k.1 = ok v ∧ k.2.2.2 * ds.dsize ≤ v.length),
    ⟨k.2.1 * ds.dsize, part ds.dsize (valOf [] (E k.1)) k.2.2.1 k.2.2.2⟩), fun g hg => ?_⟩
  simp only [sliceKey, Ready, wr, hE g.chunk hg]

/-- An S3 read against a truthful server: it succeeds exactly if every request is usable and every
chunk decodes, and then it fills the destination with the selection. -/
theorem s3ReadTo_iff {p : Profile} {io : Io} {file : List Byte} {ds : Dataset} {csz : Nat}
    {sort : List GItem → List GItem} {server : Server} {complete : List Request → List Request}
    {ext : Extents} {items : List Item} {vsz : Nat} {dst : List Byte} (hdet : AddrDet ds)
    (hsort : ∀ l : List GItem, l.Perm (sort l)) (hcomp : ∀ l, (complete l).Perm l)
    (hf : file.length < 2 ^ 63) (hsrv : Truthful file server)
    (hpos : ∀ c ∈ ds.chunks, 0 < c.size ∧ c.addr + c.size < W)
    (hc : chunkBytes p ds = ok csz) (h : Sliced p ds ext items vsz) (hn : vsz ≤ dst.length) :
    ∃ reqs, groupRequests p (sort (tile 0 items)) = ok reqs ∧ (∀ r ∈ reqs, ReqOk' r) ∧
      ReqInv (sort (tile 0 items)) reqs ∧
      (∀ n, (s3ReadTo p io.inflate ds sort server complete ext dst).1 = ok n ↔
        n = vsz ∧ (∀ r ∈ reqs, Usable server r.start (r.stop - 1)) ∧
        ∀ it ∈ items, Ready (rawD p io file ds csz) ds.dsize it.chunk it.stop) ∧
      (∀ n, (s3ReadTo p io.inflate ds sort server complete ext dst).1 = ok n →
        (s3ReadTo p io.inflate ds sort server complete ext dst).2 =
          blit dst 0 (items.flatMap (bytesOf (rawD p io file ds csz) ds.dsize))) := by
  have hp := hsort (tile 0 items)
  have hmem : ∀ g ∈ sort (tile 0 items), g.chunk ∈ ds.chunks :=
    fun g hg => h.mem _ (tile_mem (hp.mem_iff.2 hg))
  obtain ⟨reqs, hreqs, hinv⟩ := groupRequests_ok (p := p) (gs := sort (tile 0 items))
    (fun g hg => (hpos _ (hmem g hg)).2)
  have hcm : ∀ r ∈ reqs, ∀ cs ∈ r.chunks, cs.1 ∈ ds.chunks := by
    intro r hr cs hcs
    obtain ⟨g, hg, e⟩ := hinv.mem r hr cs hcs
    rw [← e]; exact hmem g hg
  have hok : ∀ r ∈ reqs, ReqOk' r := by
    intro r hr
    refine ⟨hinv.good r hr, fun cs hcs => (hpos _ (hcm r hr cs hcs)).1, ?_⟩
    obtain ⟨init, c, h1, h2⟩ := (hinv.good r hr).last
    rw [h2]
    exact (hpos _ (hcm r hr c (by rw [h1]; simp))).2
  have hsm : ∀ r ∈ reqs, ∀ g ∈ Request.slices r, g.chunk ∈ ds.chunks := by
    intro r hr g hg
    unfold Request.slices at hg
    simp only [List.mem_flatMap, List.mem_map] at hg
    obtain ⟨cs, h1, s, h2, rfl⟩ := hg
    exact hcm r hr cs h1
  have hkm : ∀ g ∈ reqs.flatMap Request.slices, ∃ g' ∈ sort (tile 0 items), sliceKey g' = sliceKey g := by
    intro g hg
    have : sliceKey g ∈ (sort (tile 0 items)).map sliceKey := by
      rw [← hinv.keys]; exact List.mem_map_of_mem hg
    simpa using this
  have htame : ∀ r ∈ reqs, ∀ g ∈ Request.slices r, Tame ds.dsize vsz g := by
    intro r hr g hg
    obtain ⟨g', hg', e⟩ := hkm g (List.mem_flatMap.2 ⟨r, hr, hg⟩)
    have ht := h.tame g' (hp.mem_iff.2 hg')
    simp only [sliceKey, Prod.mk.injEq] at e
    obtain ⟨-, e1, e2, e3⟩ := e
    exact ⟨by rw [← e2, ← e3]; exact ht.le, by rw [← e3]; exact ht.lt,
      by rw [← e1, ← e2, ← e3]; exact ht.fits⟩
  obtain ⟨F, hF⟩ := key_fun (p := p) (io := io) (csz := csz) (file := file) hdet
  have hsm' : ∀ g ∈ reqs.flatMap Request.slices, g.chunk ∈ ds.chunks := by
    intro g hg
    obtain ⟨r, hr, hg⟩ := List.mem_flatMap.1 hg
    exact hsm r hr g hg
  have hwr : (reqs.flatMap Request.slices).map (wr (rawD p io file ds csz) ds.dsize) =
      (sort (tile 0 items)).map (wr (rawD p io file ds csz) ds.dsize) := by
    have e1 : (reqs.flatMap Request.slices).map (wr (rawD p io file ds csz) ds.dsize) =
        ((reqs.flatMap Request.slices).map sliceKey).map fun k => (F k).2 := by
      rw [List.map_map]
      apply List.map_congr_left
      intro g hg
      simp [hF g (hsm' g hg)]
    have e2 : (sort (tile 0 items)).map (wr (rawD p io file ds csz) ds.dsize) =
        ((sort (tile 0 items)).map sliceKey).map fun k => (F k).2 := by
      rw [List.map_map]
      apply List.map_congr_left
      intro g hg
      simp [hF g (hmem g hg)]
    rw [e1, e2, hinv.keys]
  have hrd : (∀ r ∈ reqs, ∀ g ∈ Request.slices r,
      Ready (rawD p io file ds csz) ds.dsize g.chunk g.stop) ↔
      ∀ it ∈ items, Ready (rawD p io file ds csz) ds.dsize it.chunk it.stop := by
    rw [← h.ready_iff (D := rawD p io file ds csz)]
    have hpr : ∀ g : GItem, g.chunk ∈ ds.chunks →
        (Ready (rawD p io file ds csz) ds.dsize g.chunk g.stop ↔ (F (sliceKey g)).1) := by
      intro g hg; rw [hF g hg]
    constructor
    · intro hh g hg
      have hg1 := hp.mem_iff.1 hg
      have : sliceKey g ∈ (reqs.flatMap Request.slices).map sliceKey := by
        rw [hinv.keys]; exact List.mem_map_of_mem hg1
      obtain ⟨g', hg', e⟩ := List.mem_map.1 this
      obtain ⟨r, hr, hgr⟩ := List.mem_flatMap.1 hg'
      rw [hpr g (hmem g hg1), ← e, ← hpr g' (hsm' g' hg')]
      exact hh r hr g' hgr
    · intro hh r hr g hg
      have hgm := List.mem_flatMap.2 ⟨r, hr, hg⟩
      obtain ⟨g', hg', e⟩ := hkm g hgm
      rw [hpr g (hsm' g hgm), ← e, ← hpr g' (hmem g' hg')]
      exact hh g' (hp.mem_iff.2 hg')
  have hcr := hcomp reqs
  have hfold := fun d' => s3Fold_iff (p := p) (io := io) (ds := ds) (csz := csz) (n := vsz)
    (server := server) (file := file) (rs := complete reqs) (st := ⟨[], 0, [], dst⟩) (d' := d') hf hsrv
    (fun r hr => hok r (hcr.mem_iff.1 hr)) (fun r hr => htame r (hcr.mem_iff.1 hr)) hn h.vszW
  have hwp : (((complete reqs).flatMap Request.slices).map (wr (rawD p io file ds csz) ds.dsize)).Perm
      ((tile 0 items).map (wr (rawD p io file ds csz) ds.dsize)) := by
    refine ((hcr.flatMap_right _).map _).trans ?_
    rw [hwr]
    exact hp.symm.map _
  have hpre : s3Prelude p ds sort ext dst.length = ok (csz, vsz, reqs) := by
    unfold s3Prelude
    rw [hc, ok_bind, h.req, ok_bind, show decide (vsz ≤ dst.length) = true by simpa using hn,
      ensure_true, ok_bind, h.groups, ok_bind, hreqs, ok_bind]
  refine ⟨reqs, hreqs, hok, hinv, ?_⟩
  unfold s3ReadTo
  rw [hpre]
  simp only
  have huse : (∀ r ∈ complete reqs, Usable server r.start (r.stop - 1)) ↔
      ∀ r ∈ reqs, Usable server r.start (r.stop - 1) :=
    ⟨fun hh r hr => hh r (hcr.mem_iff.2 hr), fun hh r hr => hh r (hcr.mem_iff.1 hr)⟩
  have hrd' : (∀ r ∈ complete reqs, ∀ g ∈ Request.slices r,
      Ready (rawD p io file ds csz) ds.dsize g.chunk g.stop) ↔
      ∀ it ∈ items, Ready (rawD p io file ds csz) ds.dsize it.chunk it.stop := by
    rw [← hrd]
    exact ⟨fun hh r hr => hh r (hcr.mem_iff.2 hr), fun hh r hr => hh r (hcr.mem_iff.1 hr)⟩
  constructor
  · intro n
    constructor
    · intro ho
      obtain ⟨_, h1, h2⟩ := bind_eq_ok.1 ho
      obtain ⟨hu, hr, -⟩ := (hfold _).1 ⟨_, loop_fst_ok h1, rfl⟩
      exact ⟨(Outcome.ok.inj h2).symm, huse.1 hu, hrd'.1 hr⟩
    · rintro ⟨rfl, hu, hr⟩
      obtain ⟨st', h1, -⟩ := (hfold _).2 ⟨huse.2 hu, hrd'.2 hr, rfl⟩
      rw [loop_ok_iff.2 h1]
      rfl
  · intro n ho
    obtain ⟨_, h1, h2⟩ := bind_eq_ok.1 ho
    obtain ⟨hu, hr, hd⟩ := (hfold _).1 ⟨_, loop_fst_ok h1, rfl⟩
    rw [hd]
    exact h.writes (hrd'.1 hr) hwp hn

/-- What a successful S3 read went through. -/
theorem s3ReadTo_inv {p : Profile} {inflate : List Byte → Option (List Byte)} {ds : Dataset}
    {sort : List GItem → List GItem} {server : Server} {complete : List Request → List Request}
    {ext : Extents} {dst : List Byte} {n : Nat}
    (h : (s3ReadTo p inflate ds sort server complete ext dst).1 = ok n) :
    ∃ csz vsz items, chunkBytes p ds = ok csz ∧ reqBytes p ds ext = ok vsz ∧
      ds.chunkSlices p ext = ok ⟨items, ok ()⟩ ∧ vsz ≤ dst.length := by
  unfold s3ReadTo at h
  split at h
  · rename_i csz vsz reqs hpre
    unfold s3Prelude at hpre
    obtain ⟨a, h1, hpre⟩ := bind_eq_ok.1 hpre
    obtain ⟨b, h2, hpre⟩ := bind_eq_ok.1 hpre
    obtain ⟨_, h3, hpre⟩ := bind_eq_ok.1 hpre
    obtain ⟨gs, h4, hpre⟩ := bind_eq_ok.1 hpre
    unfold Dataset.groupChunkSlices at h4
    obtain ⟨l, h5, -⟩ := bind_eq_ok.1 h4
    obtain ⟨items, h6, -⟩ := groupUnsorted_inv h5
    have := ensure_ok h3
    exact ⟨a, b, items, h1, h2, h6, by simpa using this⟩
  · rename_i x hx
    obtain ⟨a, ha, -⟩ := bind_eq_ok.1 h
    exact absurd ha (by intro e; exact hx _ _ _ e)

end Hidefix.Proofs
