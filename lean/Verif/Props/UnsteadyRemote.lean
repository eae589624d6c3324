import Verif.Props.Unsteady
import Verif.Props.Remote

/-!
# Property C66 for S3 reads: answers that fail now and then, objects that are replaced meanwhile

Every request meets its own version of the object, or fails, or gets an answer that cannot be used. As long
as the chunks that a selection needs are the same in all versions, the read returns an HTTP error, or
exactly what reading a file with the content of the object returns.
-/

set_option autoImplicit false

namespace Hidefix.Props
open Hidefix Hidefix.Spec Hidefix.Proofs Outcome

/-- A server that does not make up bytes, while the object is replaced by other versions: whenever it
answers `206` or `200`, the bytes are those of a version (from the beginning of the range, or from the
beginning of the object) that has the needed chunks as in `file`. It may answer with any other status, with
too few or too many bytes, or not at all. -/
def KeepsNeededS3 (ds : Dataset) (ext : Extents) (file : List Byte) (server : Server) : Prop :=
  ∀ a b s body, server a b = some (s, body) →
    (s = 206 → ∃ f, f.length < 2 ^ 63 ∧ SameWhereNeeded ds ext file f ∧ body <+: f.drop a) ∧
    (s = 200 → ∃ f, f.length < 2 ^ 63 ∧ SameWhereNeeded ds ext file f ∧ body <+: f)

/-- A server that does not make up bytes of one object. -/
theorem truthful_keeps {ds : Dataset} {ext : Extents} {file : List Byte} {server : Server}
    (hlen : file.length < 2 ^ 63) (h : Truthful file server) : KeepsNeededS3 ds ext file server :=
  fun a b s body hs => ⟨fun e => ⟨file, hlen, fun _ _ _ _ _ => rfl, (h a b s body hs).1 e⟩,
    fun e => ⟨file, hlen, fun _ _ _ _ _ => rfl, (h a b s body hs).2 e⟩⟩

/-! ## Steps do not depend on more than they should -/

/-- In a response with this body, the chunks decode to `D`. -/
def Decodes (p : Profile) (inflate : List Byte → Option (List Byte)) (ds : Dataset) (csz : Nat)
    (D : Chunk → Outcome (List Byte)) (chunks : List (Chunk × List Seg)) (body : List Byte)
    (base : Nat) : Prop :=
  ∀ cs ∈ chunks, ∀ (server : Server) (st : S3St), st.body = body → st.base = base →
    s3Step p inflate ds csz server st (.decode cs.1) = (D cs.1 >>= fun v => ok { st with cache := v })

theorem loop_append_ok {σ β : Type} {f : σ → β → Outcome σ} {s t : σ} {as : List β}
    (h : as.foldlM f s = ok t) (bs : List β) : loop f s (as ++ bs) = loop f t bs := by
  induction as generalizing s with
  | nil => obtain rfl := Outcome.ok.inj h; rfl
  | cons a as ih =>
    rw [List.foldlM_cons] at h
    obtain ⟨s1, h1, h2⟩ := bind_eq_ok.1 h
    rw [← ih h2, List.cons_append]
    conv_lhs => unfold loop
    rw [h1]

theorem copies_writes {p : Profile} {inflate : List Byte → Option (List Byte)} {ds : Dataset}
    {csz : Nat} {server : Server} {segs : List Seg} {st t : S3St}
    (h : (segs.map S3Op.copy).foldlM (s3Step p inflate ds csz server) st = ok t) :
    ∃ ws : List Write, (∀ w ∈ ws, InRange st.dst.length w) ∧ ∀ (server' : Server) (st' : S3St),
      st'.cache = st.cache → st'.dst.length = st.dst.length →
      (segs.map S3Op.copy).foldlM (s3Step p inflate ds csz server') st' =
        ok { st' with dst := applyWrites st'.dst ws } := by
  induction segs generalizing st with
  | nil => exact ⟨[], by simp, fun _ _ _ _ => rfl⟩
  | cons g segs ih =>
    rw [List.map_cons, List.foldlM_cons] at h
    obtain ⟨st1, h1, h⟩ := bind_eq_ok.1 h
    have hw : ∃ w : Write, InRange st.dst.length w ∧ ∀ (server' : Server) (st' : S3St),
        st'.cache = st.cache → st'.dst.length = st.dst.length →
        s3Step p inflate ds csz server' st' (.copy g) =
          ok { st' with dst := blit st'.dst w.off w.bytes } := by
      unfold s3Step at h1
      simp only at h1
      obtain ⟨start, h2, h1⟩ := bind_eq_ok.1 h1
      obtain ⟨stop, h3, h1⟩ := bind_eq_ok.1 h1
      obtain ⟨cur, h4, h1⟩ := bind_eq_ok.1 h1
      obtain ⟨_, h5, h1⟩ := bind_eq_ok.1 h1
      obtain ⟨_, h6, h1⟩ := bind_eq_ok.1 h1
      obtain ⟨sz, h7, h1⟩ := bind_eq_ok.1 h1
      obtain ⟨hi, h8, h1⟩ := bind_eq_ok.1 h1
      obtain ⟨src, h9, h1⟩ := bind_eq_ok.1 h1
      obtain ⟨d, h10, h1⟩ := bind_eq_ok.1 h1
      unfold copyTo at h10
      split at h10
      · rename_i hc
        refine ⟨⟨cur, src⟩, by show cur + src.length ≤ st.dst.length; omega, fun server' st' e1 e2 => ?_⟩
        unfold s3Step
        simp only [h2, h3, h4, h5, e1, h6, h7, h8, h9, ok_bind]
        unfold copyTo
        rw [if_pos (by rw [e2]; exact hc), ok_bind]
      · simp at h10
    obtain ⟨w, hw, hall⟩ := hw
    have e1 := Outcome.ok.inj (h1.symm.trans (hall server st rfl rfl))
    have hl : st1.dst.length = st.dst.length := by rw [e1]; exact blit_length hw
    have hc : st1.cache = st.cache := by rw [e1]
    obtain ⟨ws, hr, hws⟩ := ih h
    refine ⟨w :: ws, ?_, fun server' st' g1 g2 => ?_⟩
    · intro x hx
      rcases List.mem_cons.1 hx with rfl | hx
      · exact hw
      · rw [← hl]; exact hr x hx
    · rw [List.map_cons, List.foldlM_cons, hall server' st' g1 g2, ok_bind,
        hws server' _ (by rw [hc]; exact g1) (by
          rw [hl]; exact (blit_length (by rw [g2]; exact hw)).trans g2)]
      rfl

theorem chunks_writes {p : Profile} {inflate : List Byte → Option (List Byte)} {ds : Dataset}
    {csz : Nat} {server : Server} {D : Chunk → Outcome (List Byte)}
    {chunks : List (Chunk × List Seg)} {st t : S3St}
    (hd : Decodes p inflate ds csz D chunks st.body st.base)
    (h : (chunks.flatMap fun cs => S3Op.decode cs.1 :: cs.2.map S3Op.copy).foldlM
      (s3Step p inflate ds csz server) st = ok t) :
    ∃ ws : List Write, (∀ w ∈ ws, InRange st.dst.length w) ∧ ∀ (server' : Server) (st' : S3St),
      Decodes p inflate ds csz D chunks st'.body st'.base → st'.dst.length = st.dst.length →
      ∃ t', (chunks.flatMap fun cs => S3Op.decode cs.1 :: cs.2.map S3Op.copy).foldlM
        (s3Step p inflate ds csz server') st' = ok t' ∧ t'.dst = applyWrites st'.dst ws := by
  induction chunks generalizing st with
  | nil => exact ⟨[], by simp, fun _ st' _ _ => ⟨st', rfl, rfl⟩⟩
  | cons cs chunks ih =>
    rw [List.flatMap_cons, List.foldlM_append, List.foldlM_cons] at h
    obtain ⟨st2, h, h'⟩ := bind_eq_ok.1 h
    obtain ⟨st1, h1, h2⟩ := bind_eq_ok.1 h
    rw [hd cs (by simp) server st rfl rfl] at h1
    obtain ⟨v, hv, h1⟩ := bind_eq_ok.1 h1
    obtain rfl := Outcome.ok.inj h1
    obtain ⟨ws, r1, r2⟩ := copies_writes h2
    have e2 := Outcome.ok.inj (h2.symm.trans (r2 server _ rfl rfl))
    subst e2
    obtain ⟨ws', s1, s2⟩ := ih (st := ⟨st.body, st.base, v, applyWrites st.dst ws⟩)
      (fun x hx => hd x (by simp [hx])) h'
    have hl : (applyWrites st.dst ws).length = st.dst.length := applyWrites_length r1
    refine ⟨ws ++ ws', ?_, fun server' st' g1 g2 => ?_⟩
    · intro w hw
      rcases List.mem_append.1 hw with hw | hw
      · exact r1 w hw
      · have := s1 w hw
        simp only [hl] at this
        exact this
    · have g3 := r2 server' { st' with cache := v } rfl g2
      have hl' : (applyWrites st'.dst ws).length = st'.dst.length :=
        applyWrites_length (fun w hw => by rw [g2]; exact r1 w hw)
      obtain ⟨t', q1, q2⟩ := s2 server' { st' with cache := v, dst := applyWrites st'.dst ws }
        (fun x hx => g1 x (by simp [hx])) (by simp only [hl, hl', g2])
      refine ⟨t', ?_, ?_⟩
      · rw [List.flatMap_cons, List.foldlM_append, List.foldlM_cons,
          g1 cs (by simp) server' st' rfl rfl, hv, ok_bind, ok_bind, g3, ok_bind]
        exact q1
      · rw [q2]; simp [applyWrites, List.foldl_append]

/-- Requests that the server answers with bodies in which the chunks decode to `D`. -/
def Answers (p : Profile) (inflate : List Byte → Option (List Byte)) (ds : Dataset) (csz : Nat)
    (D : Chunk → Outcome (List Byte)) (server : Server) (r : Request) : Prop :=
  ∃ body, fetch p server r = ok body ∧ Decodes p inflate ds csz D r.chunks body r.start

theorem requests_writes {p : Profile} {inflate : List Byte → Option (List Byte)} {ds : Dataset}
    {csz : Nat} {server : Server} {D : Chunk → Outcome (List Byte)} {rs : List Request} {st t : S3St}
    (hd : ∀ r ∈ rs, Answers p inflate ds csz D server r)
    (h : (rs.flatMap requestOps).foldlM (s3Step p inflate ds csz server) st = ok t) :
    ∃ ws : List Write, (∀ w ∈ ws, InRange st.dst.length w) ∧ ∀ (server' : Server) (st' : S3St),
      (∀ r ∈ rs, Answers p inflate ds csz D server' r) → st'.dst.length = st.dst.length →
      ∃ t', (rs.flatMap requestOps).foldlM (s3Step p inflate ds csz server') st' = ok t' ∧
        t'.dst = applyWrites st'.dst ws := by
  induction rs generalizing st with
  | nil => exact ⟨[], by simp, fun _ st' _ _ => ⟨st', rfl, rfl⟩⟩
  | cons r rs ih =>
    rw [List.flatMap_cons, List.foldlM_append] at h
    obtain ⟨st2, h, h'⟩ := bind_eq_ok.1 h
    obtain ⟨body, hb, hdec⟩ := hd r (by simp)
    rw [requestOps, List.foldlM_cons] at h
    have hrecv : ∀ (server : Server) (body : List Byte) (st : S3St), fetch p server r = ok body →
        s3Step p inflate ds csz server st (.recv r) = ok { st with body := body, base := r.start } := by
      intro server body st hb
      simp only [s3Step, hb, ok_bind]
    rw [hrecv server body st hb, ok_bind] at h
    obtain ⟨ws, r1, r2⟩ := chunks_writes (D := D) hdec h
    obtain ⟨x, x1, x2⟩ := r2 server _ hdec rfl
    obtain rfl := Outcome.ok.inj (h.symm.trans x1)
    obtain ⟨ws', s1, s2⟩ := ih (fun x hx => hd x (by simp [hx])) h'
    have hl : st2.dst.length = st.dst.length := by rw [x2]; exact applyWrites_length r1
    refine ⟨ws ++ ws', ?_, fun server' st' g1 g2 => ?_⟩
    · intro w hw
      rcases List.mem_append.1 hw with hw | hw
      · exact r1 w hw
      · rw [← hl]; exact s1 w hw
    · obtain ⟨body', hb', hdec'⟩ := g1 r (by simp)
      obtain ⟨y, y1, y2⟩ := r2 server' { st' with body := body', base := r.start } hdec' g2
      have hy : y.dst.length = st'.dst.length := by
        rw [y2]; exact applyWrites_length (fun w hw => by simp only; rw [g2]; exact r1 w hw)
      obtain ⟨t', q1, q2⟩ := s2 server' y (fun x hx => g1 x (by simp [hx])) (by rw [hy, g2, hl])
      refine ⟨t', ?_, ?_⟩
      · rw [List.flatMap_cons, List.foldlM_append, requestOps, List.foldlM_cons, hrecv server' body' st' hb',
          ok_bind, y1, ok_bind]
        exact q1
      · rw [q2, y2]; simp [applyWrites, List.foldl_append]

/-- The loop ends well, or at the first request without a usable answer. -/
theorem requests_until {p : Profile} {inflate : List Byte → Option (List Byte)} {ds : Dataset}
    {csz : Nat} {server good : Server} {D : Chunk → Outcome (List Byte)} {rs : List Request}
    {st g t : S3St} (hgood : ∀ r ∈ rs, Answers p inflate ds csz D good r)
    (hbad : ∀ r ∈ rs, Answers p inflate ds csz D server r ∨ fetch p server r = err .http)
    (h : (rs.flatMap requestOps).foldlM (s3Step p inflate ds csz good) g = ok t)
    (hg : g.dst = st.dst) :
    (∃ t', loop (s3Step p inflate ds csz server) st (rs.flatMap requestOps) = (ok (), t') ∧
      t'.dst = t.dst) ∨
    (∃ t' pre post s, loop (s3Step p inflate ds csz server) st (rs.flatMap requestOps) =
        (err .http, t') ∧ rs = pre ++ post ∧
      (pre.flatMap requestOps).foldlM (s3Step p inflate ds csz good) g = ok s ∧ s.dst = t'.dst) := by
  induction rs generalizing st g with
  | nil =>
    obtain rfl := Outcome.ok.inj h
    exact .inl ⟨st, rfl, hg.symm⟩
  | cons r rs ih =>
    rw [List.flatMap_cons, List.foldlM_append] at h
    obtain ⟨g2, h, h'⟩ := bind_eq_ok.1 h
    rcases hbad r (by simp) with ha | hf
    · obtain ⟨ws, -, r2⟩ := requests_writes (rs := [r]) (D := D) (server := good)
        (fun x hx => hgood x (by simp at hx; simp [hx])) (by simpa using h)
      obtain ⟨x, x1, x2⟩ := r2 good g (fun x hx => hgood x (by simp at hx; simp [hx])) rfl
      obtain ⟨y, y1, y2⟩ := r2 server st (fun x hx => by simp at hx; rw [hx]; exact ha) (by rw [hg])
      simp only [List.flatMap_cons, List.flatMap_nil, List.append_nil] at x1 y1
      obtain rfl := Outcome.ok.inj (h.symm.trans x1)
      have hl : loop (s3Step p inflate ds csz server) st ((r :: rs).flatMap requestOps) =
          loop (s3Step p inflate ds csz server) y (rs.flatMap requestOps) := by
        rw [List.flatMap_cons]
        exact loop_append_ok y1 _
      rw [hl]
      rcases ih (st := y) (fun x hx => hgood x (by simp [hx])) (fun x hx => hbad x (by simp [hx])) h'
        (by rw [x2, y2, hg]) with ⟨t', q1, q2⟩ | ⟨t', pre, post, s, q1, q2, q3, q4⟩
      · exact .inl ⟨t', q1, q2⟩
      · refine .inr ⟨t', r :: pre, post, s, q1, by simp [q2], ?_, q4⟩
        rw [List.flatMap_cons, List.foldlM_append, h, ok_bind, q3]
    · right
      refine ⟨st, [], r :: rs, g, ?_, rfl, rfl, hg⟩
      rw [List.flatMap_cons, requestOps, List.cons_append]
      unfold loop
      simp only [s3Step, hf, err_bind]

/-! ## Answers of the server -/

theorem fetch_fails {p : Profile} {server : Server} {r : Request} (hr : ReqOk' r)
    (h : ∀ body, fetch p server r ≠ ok body) : fetch p server r = err .http := by
  have hlt := hr.start_lt
  unfold fetch at h ⊢
  rw [sub64_of_le (show 1 ≤ r.stop by omega), ok_bind] at h ⊢
  rw [show decide (r.start ≤ r.stop - 1) = true by simp; omega] at h ⊢
  simp only [assertP, if_true, ok_bind, sub64_of_le (Nat.le_of_lt hlt)] at h ⊢
  cases hs : server r.start (r.stop - 1) with
  | none => rfl
  | some sb =>
    obtain ⟨s, b⟩ := sb
    rw [hs] at h
    simp only at h ⊢
    unfold ensure at h ⊢
    split
    · rename_i h1
      rw [if_pos h1] at h
      simp only [ok_bind] at h ⊢
      split
      · rename_i h2
        rw [if_pos h2] at h
        exact absurd rfl (h b)
      · rfl
    · rfl

/-- A usable answer of a server that keeps the needed chunks has those chunks. -/
theorem answers_of_keeps {p : Profile} {io : Io} {ds : Dataset} {ext : Extents} {csz : Nat}
    {file : List Byte} {server : Server} {r : Request} (hkeep : KeepsNeededS3 ds ext file server)
    (hr : ReqOk' r)
    (hraw : ∀ f, SameWhereNeeded ds ext file f → ∀ cs ∈ r.chunks,
      readRaw file cs.1.addr cs.1.size = readRaw f cs.1.addr cs.1.size) :
    Answers p io.inflate ds csz (rawD p io file ds csz) server r ∨ fetch p server r = err .http := by
  by_cases h : ∃ body, fetch p server r = ok body
  · obtain ⟨body, hb⟩ := h
    obtain ⟨s, h1, h2, h3⟩ := (fetch_iff hr).1 hb
    left
    have hf : ∃ f, f.length < 2 ^ 63 ∧ SameWhereNeeded ds ext file f ∧ body <+: f.drop r.start := by
      rcases h2 with rfl | ⟨rfl, h0⟩
      · exact (hkeep _ _ _ _ h1).1 rfl
      · obtain ⟨f, f1, f2, f3⟩ := (hkeep _ _ _ _ h1).2 rfl
        exact ⟨f, f1, f2, by rw [h0]; exact f3⟩
    obtain ⟨f, f1, f2, f3⟩ := hf
    refine ⟨body, hb, fun cs hcs srv st e1 e2 => ?_⟩
    obtain ⟨i1, i2⟩ := hr.toRequestOk.inside cs hcs
    rw [decode_body f1 f3 h3 i1 i2 (hr.pos cs hcs) e1 e2]
    have : rawD p io f ds csz cs.1 = rawD p io file ds csz cs.1 := by
      unfold rawD readChunk
      rw [hraw f f2 cs hcs]
    rw [this]
  · exact .inr (fetch_fails hr fun body hb => h ⟨body, hb⟩)

theorem s3_prelude_requests {p : Profile} {ds : Dataset} {sort : List GItem → List GItem}
    {ext : Extents} {n csz vsz : Nat} {reqs : List Request}
    (hpos : ∀ c ∈ ds.chunks, 0 < c.size ∧ c.addr + c.size < W)
    (hsort : ∀ l : List GItem, l.Perm (sort l))
    (h : s3Prelude p ds sort ext n = ok (csz, vsz, reqs)) :
    ∃ l, ds.groupChunkSlices p ext sort = ok l ∧ ReqInv l reqs := by
  unfold s3Prelude at h
  obtain ⟨_, -, h⟩ := bind_eq_ok.1 h
  obtain ⟨_, -, h⟩ := bind_eq_ok.1 h
  obtain ⟨_, -, h⟩ := bind_eq_ok.1 h
  obtain ⟨l, h1, h⟩ := bind_eq_ok.1 h
  obtain ⟨rs, h2, h⟩ := bind_eq_ok.1 h
  have e := ((Prod.mk.inj (Prod.mk.inj (Outcome.ok.inj h)).2).2)
  subst e
  obtain ⟨rs', h3, h4⟩ := groupRequests_ok (p := p) (gs := l)
    (fun g hg => (hpos _ (groups_mem hsort h1 g hg)).2)
  obtain rfl := Outcome.ok.inj (h2.symm.trans h3)
  exact ⟨l, h1, h4⟩

theorem honest_truthful (file : List Byte) : Truthful file (honest file) := by
  intro a b s body h
  unfold honest at h
  split at h
  · simp only [Option.some.injEq, Prod.mk.injEq] at h
    obtain ⟨rfl, rfl⟩ := h
    exact ⟨fun _ => List.take_prefix _ _, by simp⟩
  · simp only [Option.some.injEq, Prod.mk.injEq] at h
    obtain ⟨rfl, rfl⟩ := h
    simp

/-- What is known of an S3 read whose undisturbed counterpart - of a file with the content of the object -
succeeds: the requests, their answers by an honest server and by one that keeps the needed chunks, and the
undisturbed run in every order. -/
theorem s3_undisturbed {p : Profile} {io : Io} {file : List Byte} {ds : Dataset} {ext : Extents}
    {sort sort' : List GItem → List GItem} {dst : List Byte}
    (hwf : WF p ds) (hfit : EndsFit ds ext)
    (hdet : AddrDet ds) (hpos : ∀ c ∈ ds.chunks, 0 < c.size ∧ c.addr + c.size < W)
    (hlen : file.length < 2 ^ 63) (hsort : ∀ l, SortedByAddr l (sort l))
    (hsort' : ∀ l, SortedByAddr l (sort' l)) (hW : dst.length < W)
    {n : Nat} (hok : (directReadTo p (withFile io file) ds sort' ext dst).1 = ok n) :
    ∃ csz reqs, s3Prelude p ds sort ext dst.length = ok (csz, n, reqs) ∧ (∀ r ∈ reqs, ReqOk' r) ∧
      (∀ S, KeepsNeededS3 ds ext file S → ∀ r ∈ reqs,
        Answers p io.inflate ds csz (rawD p io file ds csz) S r ∨ fetch p S r = err .http) ∧
      (∀ r ∈ reqs, Answers p io.inflate ds csz (rawD p io file ds csz) (honest file) r) ∧
      (∀ order : List Request, order.Perm reqs →
        ∃ t, (order.flatMap requestOps).foldlM (s3Step p io.inflate ds csz (honest file))
          ⟨[], 0, [], dst⟩ = ok t ∧ t.dst = (directReadTo p (withFile io file) ds sort' ext dst).2) := by
  obtain ⟨csz, vsz, items, h1, h2, h3, h4⟩ := direct_pre hok
  have hp : ∀ l : List GItem, l.Perm (sort l) := fun l => (hsort l).1
  have agree : ∀ complete' : List Request → List Request, (∀ l, (complete' l).Perm l) → _ :=
    fun complete' hc' => s3_agree (io := withFile io file) (sort' := sort') (complete := complete')
      (dst := dst) hdet hpos hlen rfl (honest_truthful file) hp (fun l => (hsort' l).1) hc' h1 h2 h3 h4 hW
  obtain ⟨reqs, hpre, hrok, a1, a2, a3⟩ := agree id fun l => .refl l
  have huse : ∀ r ∈ reqs, Usable (honest file) r.start (r.stop - 1) := by
    intro r hr
    have hlt := (hrok r hr).start_lt
    have hin := a3 n hok r hr
    refine ⟨206, (file.drop r.start).take (r.stop - 1 + 1 - r.start),
      (honest_serves file).inside _ _ (by omega) (by omega), .inl rfl, ?_⟩
    simp only [List.length_take, List.length_drop]; omega
  obtain ⟨l, hl, hinv⟩ := s3_prelude_requests hpos hp hpre
  have hraw : ∀ r ∈ reqs, ∀ f, SameWhereNeeded ds ext file f → ∀ cs ∈ r.chunks,
      readRaw file cs.1.addr cs.1.size = readRaw f cs.1.addr cs.1.size := by
    intro r hr f hf cs hcs
    obtain ⟨g, hg, e⟩ := hinv.mem r hr cs hcs
    rw [← e]
    exact same_groups hwf hfit hf hp hl g hg
  have hans : ∀ S, KeepsNeededS3 ds ext file S → ∀ r ∈ reqs,
      Answers p io.inflate ds csz (rawD p io file ds csz) S r ∨ fetch p S r = err .http :=
    fun S hS r hr => answers_of_keeps hS (hrok r hr) (hraw r hr)
  have hgood : ∀ r ∈ reqs, Answers p io.inflate ds csz (rawD p io file ds csz) (honest file) r := by
    intro r hr
    rcases hans _ (truthful_keeps hlen (honest_truthful file)) r hr with h | h
    · exact h
    · obtain ⟨s, body, u1, u2, u3⟩ := huse r hr
      have hlt := (hrok r hr).start_lt
      rw [(fetch_iff (hrok r hr)).2 ⟨s, u1, u2, by omega⟩] at h
      simp at h
  -- the undisturbed S3 read, for every order of completion
  have hrun : ∀ order : List Request, order.Perm reqs →
      ∃ t, (order.flatMap requestOps).foldlM (s3Step p io.inflate ds csz (honest file))
        ⟨[], 0, [], dst⟩ = ok t ∧ t.dst = (directReadTo p (withFile io file) ds sort' ext dst).2 ∧
          n = vsz := by
    intro order ho
    let complete' : List Request → List Request := fun m => if m = reqs then order else m
    obtain ⟨reqs', hpre', -, b1, b2, -⟩ := agree complete' fun m => by
      simp only [complete']
      split
      · rename_i e; rw [e]; exact ho
      · exact .refl m
    have e := ((Prod.mk.inj (Prod.mk.inj (Outcome.ok.inj (hpre.symm.trans hpre'))).2).2)
    subst e
    have hk := (b1 n).2 ⟨huse, hok⟩
    have hd := b2 n hk
    unfold s3ReadTo at hk hd
    rw [hpre] at hk hd
    simp only [complete', if_true] at hk hd
    obtain ⟨_, hk, hv⟩ := bind_eq_ok.1 hk
    exact ⟨_, loop_fst_ok hk, hd, (Outcome.ok.inj hv).symm⟩
  obtain ⟨_, -, -, rfl⟩ := hrun reqs (.refl _)
  exact ⟨csz, reqs, hpre, hrok, hans, hgood, fun order ho => by
    obtain ⟨t, t1, t2, -⟩ := hrun order ho
    exact ⟨t, t1, t2⟩⟩

/-- Some of the requests handled: every byte is as it was, or as all of them together leave it. -/
theorem handled_old_or_new {p : Profile} {io : Io} {ds : Dataset} {csz : Nat}
    {reqs pre post : List Request} {dst Q : List Byte} {s : S3St} {good : Server}
    {D : Chunk → Outcome (List Byte)}
    (hgood : ∀ r ∈ reqs, Answers p io.inflate ds csz D good r)
    (hrun : ∀ order : List Request, order.Perm reqs →
      ∃ t, (order.flatMap requestOps).foldlM (s3Step p io.inflate ds csz good)
        ⟨[], 0, [], dst⟩ = ok t ∧ t.dst = Q)
    (hperm : (pre ++ post).Perm reqs)
    (c3 : (pre.flatMap requestOps).foldlM (s3Step p io.inflate ds csz good) ⟨[], 0, [], dst⟩ = ok s) :
    s.dst.length = dst.length ∧ ∀ i : Nat, s.dst[i]? = dst[i]? ∨ s.dst[i]? = Q[i]? := by
  obtain ⟨u, hu, hud⟩ := hrun (post ++ pre) (List.perm_append_comm.trans hperm)
  rw [List.flatMap_append, List.foldlM_append] at hu
  obtain ⟨m, m1, m2⟩ := bind_eq_ok.1 hu
  have hpreA : ∀ x ∈ pre, Answers p io.inflate ds csz D good x :=
    fun x hx => hgood x (hperm.mem_iff.1 (by simp [hx]))
  have hpostA : ∀ x ∈ post, Answers p io.inflate ds csz D good x :=
    fun x hx => hgood x (hperm.mem_iff.1 (by simp [hx]))
  obtain ⟨ws, w1, w2⟩ := requests_writes hpreA c3
  obtain ⟨vs, v1, v2⟩ := requests_writes hpostA m1
  obtain ⟨m', m3, m4⟩ := v2 good ⟨[], 0, [], dst⟩ hpostA rfl
  obtain rfl := Outcome.ok.inj (m1.symm.trans m3)
  have hml : m.dst.length = dst.length := by rw [m4]; exact applyWrites_length v1
  obtain ⟨s', s1, s2⟩ := w2 good ⟨[], 0, [], dst⟩ hpreA rfl
  obtain rfl := Outcome.ok.inj (c3.symm.trans s1)
  obtain ⟨u', u1, u2⟩ := w2 good m hpreA hml
  obtain rfl := Outcome.ok.inj (m2.symm.trans u1)
  rw [← hud, s2, u2]
  simp only at w1 ⊢
  refine ⟨applyWrites_length w1, fun i => ?_⟩
  rcases applyWrites_old_or_fixed w1 i with h | h
  · exact .inl h
  · exact .inr (h m.dst hml).symm

/-- C66 for S3 reads. If the undisturbed read - of a file with the content of the object - succeeds, then
the read from a server that fails now and then, or whose object is replaced meanwhile by versions with the
same needed chunks, has the very same result, or fails with an HTTP error, with every byte of the
destination as it was or as the undisturbed read leaves it. For every order in which the concurrent
requests complete. -/
theorem C66_s3 {p : Profile} {io : Io} {file : List Byte} {ds : Dataset} {ext : Extents}
    {sort sort' : List GItem → List GItem} {server : Server}
    {complete : List Request → List Request} {dst : List Byte}
    (hwf : WF p ds) (hfit : EndsFit ds ext) (hkeep : KeepsNeededS3 ds ext file server)
    (hdet : AddrDet ds) (hpos : ∀ c ∈ ds.chunks, 0 < c.size ∧ c.addr + c.size < W)
    (hlen : file.length < 2 ^ 63) (hsort : ∀ l, SortedByAddr l (sort l))
    (hsort' : ∀ l, SortedByAddr l (sort' l)) (hcomp : ∀ l, (complete l).Perm l) (hW : dst.length < W)
    {n : Nat} (hok : (directReadTo p (withFile io file) ds sort' ext dst).1 = ok n) :
    let r := s3ReadTo p io.inflate ds sort server complete ext dst
    let q := directReadTo p (withFile io file) ds sort' ext dst
    r = q ∨ (r.1 = err .http ∧ r.2.length = dst.length ∧
      ∀ i : Nat, r.2[i]? = dst[i]? ∨ r.2[i]? = q.2[i]?) := by
  intro r q
  obtain ⟨csz, reqs, hpre, hrok, hans, hgood, hrun⟩ := s3_undisturbed (io := io) (sort := sort) hwf hfit
    hdet hpos hlen hsort hsort' hW hok
  have hr : r = (((loop (s3Step p io.inflate ds csz server) ⟨[], 0, [], dst⟩
      ((complete reqs).flatMap requestOps)).1 >>= fun _ => ok n), (loop (s3Step p io.inflate ds csz
      server) ⟨[], 0, [], dst⟩ ((complete reqs).flatMap requestOps)).2.dst) := by
    show s3ReadTo p io.inflate ds sort server complete ext dst = _
    unfold s3ReadTo
    rw [hpre]
  have hmem : ∀ x, x ∈ complete reqs → x ∈ reqs := fun x hx => (hcomp reqs).mem_iff.1 hx
  obtain ⟨t, ht, htd⟩ := hrun _ (hcomp reqs)
  rcases requests_until (st := ⟨[], 0, [], dst⟩) (server := server)
    (fun x hx => hgood x (hmem x hx)) (fun x hx => hans server hkeep x (hmem x hx)) ht rfl with
    ⟨t', c1, c2⟩ | ⟨t', pre, post, s, c1, c2, c3, c4⟩
  · left
    rw [hr, c1]
    exact Prod.ext hok.symm (c2.trans htd)
  · right
    have e1 : r.1 = err .http := by rw [hr, c1]; rfl
    have e2 : r.2 = t'.dst := by rw [hr, c1]
    rw [e1, e2, ← c4]
    exact ⟨rfl, handled_old_or_new (io := io) hgood hrun (by rw [← c2]; exact hcomp reqs) c3⟩

/-! ## An instance -/

/-- The first range is answered from the demo file, longer ranges from a version of it that is damaged in
the third and fourth chunk; a range that begins at 11 gets a `200` with the whole object, which cannot be
used. -/
def flakyServer : Server := fun a b =>
  if a = 11 then some (200, Demo.file)
  else if b < 15 then honest Demo.file a b else honest damagedElsewhere a b

theorem flakyServer_keeps : KeepsNeededS3 Demo.ds topRows Demo.file flakyServer := by
  have h1 := truthful_keeps (ds := Demo.ds) (ext := topRows) (file := Demo.file) (by decide)
    (honest_truthful Demo.file)
  intro a b s body h
  unfold flakyServer at h
  split at h
  · simp only [Option.some.injEq, Prod.mk.injEq] at h
    obtain ⟨rfl, rfl⟩ := h
    exact ⟨by simp, fun _ => ⟨Demo.file, by decide, fun _ _ _ _ _ => rfl, List.prefix_rfl⟩⟩
  · split at h
    · exact h1 a b s body h
    · have := honest_truthful damagedElsewhere a b s body h
      exact ⟨fun e => ⟨damagedElsewhere, by decide, topRows_same, this.1 e⟩,
        fun e => ⟨damagedElsewhere, by decide, topRows_same, this.2 e⟩⟩

example (p : Profile) (dst : List Byte) (hW : dst.length < W) (n : Nat)
    (hok : (directReadTo p (withFile Demo.io Demo.file) Demo.ds sortByAddr topRows dst).1 = ok n) :
    let r := s3ReadTo p Demo.io.inflate Demo.ds sortByAddr flakyServer List.reverse topRows dst
    let q := directReadTo p (withFile Demo.io Demo.file) Demo.ds sortByAddr topRows dst
    r = q ∨ (r.1 = err .http ∧ r.2.length = dst.length ∧
      ∀ i : Nat, r.2[i]? = dst[i]? ∨ r.2[i]? = q.2[i]?) :=
  C66_s3 (Demo.wf p) topRows_fit flakyServer_keeps Demo.addr (by decide) (by decide) sortByAddr_ok
    sortByAddr_ok (fun l => l.reverse_perm) hW hok

end Hidefix.Props
