import Verif.Model.Flight
import Verif.Props.UnsteadyRemote

/-!
# Property C83: requests in flight
-/

set_option autoImplicit false

namespace Hidefix.Props
open Hidefix Hidefix.Spec Hidefix.Proofs Outcome

/-- What holds at any time: at most 16 requests are in flight, every request is in exactly one place, and
the loop has done what handling the handled requests in their order does. -/
structure FlightInv (p : Profile) (inflate : List Byte → Option (List Byte)) (ds : Dataset) (csz : Nat)
    (server : Server) (reqs : List Request) (dst : List Byte) (k : Nat) (s : FlightSt) : Prop where
  few : s.flight.length ≤ 16
  perm : (s.handled ++ (s.flight ++ s.waiting)).Perm reqs
  st : (s.handled.flatMap requestOps).foldlM (s3Step p inflate ds csz server) ⟨[], 0, [], dst⟩ = ok s.st
  count : k = 2 * s.handled.length + s.flight.length

theorem flight_inv {p : Profile} {inflate : List Byte → Option (List Byte)} {ds : Dataset} {csz k : Nat}
    {server : Server} {reqs : List Request} {dst : List Byte} {s : FlightSt}
    (h : FlightRun p inflate ds csz server (.init reqs dst) k s) :
    FlightInv p inflate ds csz server reqs dst k s := by
  induction h with
  | nil => exact ⟨by simp [FlightSt.init], by simp [FlightSt.init], rfl, rfl⟩
  | snoc k t u _ hstep ih =>
    obtain ⟨i1, i2, i3, i4⟩ := ih
    cases hstep with
    | start r rest hw hlt =>
      refine ⟨?_, ?_, i3, ?_⟩
      · simp only [List.length_append, List.length_singleton]; unfold concurrentRequests at hlt; omega
      · rw [hw] at i2; simpa using i2
      · simp only [List.length_append, List.length_singleton]; omega
    | handle r pre post st' hf hfull hr =>
      have hl : t.flight.length = pre.length + (post.length + 1) := by rw [hf]; simp
      refine ⟨?_, ?_, ?_, ?_⟩
      · simp only [List.length_append]; omega
      · rw [hf] at i2
        refine List.Perm.trans ?_ i2
        rw [List.append_assoc]
        refine List.Perm.append_left _ ?_
        show ([r] ++ ((pre ++ post) ++ t.waiting)).Perm _
        have : pre ++ r :: post ++ t.waiting = pre ++ ([r] ++ (post ++ t.waiting)) := by simp
        rw [this, List.append_assoc]
        exact (List.perm_append_comm_assoc _ _ _)
      · simp only [List.flatMap_append, List.flatMap_cons, List.flatMap_nil, List.append_nil]
        rw [List.foldlM_append, i3, ok_bind]
        exact loop_ok_iff.1 hr
      · simp only [List.length_append, List.length_singleton]; omega

/-- C83: at any time during an S3 read, at most 16 requests are outstanding, and every request is still to
be sent, or outstanding, or handled: none is sent twice, none is forgotten. -/
theorem C83 {p : Profile} {inflate : List Byte → Option (List Byte)} {ds : Dataset} {csz k : Nat}
    {server : Server} {reqs : List Request} {dst : List Byte} {s : FlightSt}
    (h : FlightRun p inflate ds csz server (.init reqs dst) k s) :
    s.flight.length ≤ 16 ∧ (s.handled ++ s.flight ++ s.waiting).Perm reqs := by
  have := flight_inv h
  exact ⟨this.few, by rw [List.append_assoc]; exact this.perm⟩

/-- C83: a call ends: after at most two events per request nothing more can happen, and as long as the call
has not ended, something can happen (once the server answers, or the transport gives up). -/
theorem C83_ends {p : Profile} {inflate : List Byte → Option (List Byte)} {ds : Dataset} {csz k : Nat}
    {server : Server} {reqs : List Request} {dst : List Byte} {s : FlightSt}
    (h : FlightRun p inflate ds csz server (.init reqs dst) k s) :
    k ≤ 2 * reqs.length ∧
      ((∃ o, FlightEnd p inflate ds csz server s o) ∨ ∃ t, FlightStep p inflate ds csz server s t) := by
  obtain ⟨h1, h2, h3, h4⟩ := flight_inv h
  have hl := h2.length_eq
  simp only [List.length_append] at hl
  refine ⟨by omega, ?_⟩
  cases hf : s.flight with
  | nil =>
    cases hw : s.waiting with
    | nil => exact .inl ⟨_, .done hw hf⟩
    | cons r rest => exact .inr ⟨_, .start s r rest hw (by rw [hf]; decide)⟩
  | cons r post =>
    by_cases hfull : s.waiting = [] ∨ concurrentRequests ≤ s.flight.length
    · cases hr : loop (s3Step p inflate ds csz server) s.st (requestOps r) with
      | mk o st' =>
        by_cases ho : o = ok ()
        · subst ho
          exact .inr ⟨_, .handle s r [] post st' hf hfull hr⟩
        · exact .inl ⟨_, .failed r [] post o st' hf hfull hr ho⟩
    · cases hw : s.waiting with
      | nil => exact absurd (.inl hw) hfull
      | cons r rest => exact .inr ⟨_, .start s r rest hw (Nat.lt_of_not_le fun h => hfull (.inr h))⟩

theorem loop_append_fail {σ β : Type} {f : σ → β → Outcome σ} {s t : σ} {o : Outcome Unit} {as : List β}
    (h : loop f s as = (o, t)) (ho : o ≠ ok ()) (bs : List β) : loop f s (as ++ bs) = (o, t) := by
  induction as generalizing s with
  | nil => simp only [loop, Prod.mk.injEq] at h; exact absurd h.1.symm ho
  | cons a as ih =>
    rw [List.cons_append]
    unfold loop at h ⊢
    split at h
    · exact ih h
    all_goals (rename_i e; simp only [Prod.mk.injEq] at h; rw [h.1, h.2])

/-- C83: whatever the network does, the result of a call is that of handling the responses one after the
other in some order: all that is proved of `s3ReadTo` (C17, C19, C66, C76) holds for it. -/
theorem C83_order {p : Profile} {inflate : List Byte → Option (List Byte)} {ds : Dataset}
    {sort : List GItem → List GItem} {server : Server} {ext : Extents} {dst : List Byte}
    {r : Outcome Nat × List Byte} (h : S3Call p inflate ds sort server ext dst r) :
    ∃ complete : List Request → List Request, (∀ l, (complete l).Perm l) ∧
      r = s3ReadTo p inflate ds sort server complete ext dst := by
  cases h with
  | early e h hne =>
    refine ⟨id, fun l => .refl l, ?_⟩
    unfold s3ReadTo
    cases hp : s3Prelude p ds sort ext dst.length with
    | ok x => rw [hp] at h; exact absurd h.symm (hne _)
    | err x => rw [hp] at h; subst h; rfl
    | panic x => rw [hp] at h; subst h; rfl
    | ub => rw [hp] at h; subst h; rfl
    | diverge => rw [hp] at h; subst h; rfl
  | ran csz vsz k reqs s o d h hrun hend =>
    obtain ⟨h1, h2, h3, h4⟩ := flight_inv hrun
    have key : ∃ order : List Request, order.Perm reqs ∧ ∃ t,
        loop (s3Step p inflate ds csz server) ⟨[], 0, [], dst⟩ (order.flatMap requestOps) = (o, t) ∧
        t.dst = d := by
      cases hend with
      | done hw hf =>
        rw [hw, hf] at h2
        refine ⟨s.handled, by simpa using h2, s.st, loop_ok_iff.2 h3, rfl⟩
      | failed r pre post o st' hf hfull hr hne =>
        refine ⟨s.handled ++ (r :: (pre ++ post ++ s.waiting)), ?_, st', ?_, rfl⟩
        · refine List.Perm.trans (List.Perm.append_left _ ?_) h2
          rw [hf]
          have : pre ++ r :: post ++ s.waiting = pre ++ ([r] ++ (post ++ s.waiting)) := by simp
          rw [this, List.append_assoc]
          exact List.perm_append_comm_assoc [r] _ _
        · rw [List.flatMap_append, loop_append_ok h3, List.flatMap_cons]
          exact loop_append_fail hr hne _
    obtain ⟨order, q1, t, q2, q3⟩ := key
    refine ⟨fun m => if m = reqs then order else m, fun m => ?_, ?_⟩
    · simp only
      split
      · rename_i e; rw [e]; exact q1
      · exact .refl m
    · unfold s3ReadTo
      rw [h]
      simp only [if_true]
      rw [q2, q3]

/-- C83, the other way: some order of completion is possible, so there is a result. -/
theorem C83_some (p : Profile) (inflate : List Byte → Option (List Byte)) (ds : Dataset)
    (sort : List GItem → List GItem) (server : Server) (ext : Extents) (dst : List Byte) :
    ∃ r, S3Call p inflate ds sort server ext dst r := by
  cases hp : s3Prelude p ds sort ext dst.length with
  | err x => exact ⟨_, .early (err x) (by rw [hp]; rfl) (by simp)⟩
  | panic x => exact ⟨_, .early (panic x) (by rw [hp]; rfl) (by simp)⟩
  | ub => exact ⟨_, .early ub (by rw [hp]; rfl) (by simp)⟩
  | diverge => exact ⟨_, .early diverge (by rw [hp]; rfl) (by simp)⟩
  | ok x =>
    obtain ⟨csz, vsz, reqs⟩ := x
    have key : ∀ m k s, FlightRun p inflate ds csz server (.init reqs dst) k s →
        m = 2 * reqs.length + 1 - k →
        ∃ k' s' o, FlightRun p inflate ds csz server (.init reqs dst) k' s' ∧
          FlightEnd p inflate ds csz server s' o := by
      intro m
      induction m with
      | zero =>
        intro k s h hm
        have := (C83_ends h).1
        omega
      | succ m ih =>
        intro k s h hm
        rcases (C83_ends h).2 with ⟨o, ho⟩ | ⟨t, ht⟩
        · exact ⟨k, s, o, h, ho⟩
        · exact ih (k + 1) t (.snoc k s t h ht) (by omega)
    obtain ⟨k, s, o, h1, h2⟩ := key _ 0 _ .nil rfl
    exact ⟨_, .ran csz vsz k reqs s o.1 o.2 hp h1 h2⟩

/-! ## Memory -/

/-- The bytes of the answers to the requests in flight. -/
def answerBytes (server : Server) (s : FlightSt) : Nat :=
  (s.flight.map fun r => match server r.start (r.stop - 1) with
    | some (_, body) => body.length
    | none => 0).sum

theorem sum_le_mul {l : List Nat} {m : Nat} (h : ∀ x ∈ l, x ≤ m) : l.sum ≤ l.length * m := by
  induction l with
  | nil => simp
  | cons x l ih =>
    rw [List.sum_cons, List.length_cons, Nat.succ_mul]
    have := h x (by simp)
    have := ih fun y hy => h y (by simp [hy])
    omega

/-- C83: the answers that are outstanding, or have arrived and wait to be handled, are together at most 16
times 8 MiB, or 16 times the size of the largest chunk if that is larger than 8 MiB. For servers that send
no more than they are asked for. -/
theorem C83_memory {p : Profile} {inflate : List Byte → Option (List Byte)} {ds : Dataset} {csz vsz k : Nat}
    {sort : List GItem → List GItem} {server : Server} {ext : Extents} {dst : List Byte}
    {reqs : List Request} {s : FlightSt} {M : Nat}
    (hsort : ∀ l, SortedByAddr l (sort l))
    (hpos : ∀ c ∈ ds.chunks, 0 < c.size ∧ c.addr + c.size < W)
    (hM : ∀ c ∈ ds.chunks, c.size ≤ M)
    (hsrv : ∀ a b st body, server a b = some (st, body) → body.length ≤ b + 1 - a)
    (hpre : s3Prelude p ds sort ext dst.length = ok (csz, vsz, reqs))
    (h : FlightRun p inflate ds csz server (.init reqs dst) k s) :
    answerBytes server s ≤ 16 * max 8388608 M := by
  obtain ⟨h1, h2, -⟩ := flight_inv h
  obtain ⟨l, hl, hinv⟩ := s3_prelude_requests hpos (fun l => (hsort l).1) hpre
  have key : ∀ r ∈ s.flight, r.stop - r.start ≤ max 8388608 M ∧ r.start < r.stop := by
    intro r hr
    have hm : r ∈ reqs := h2.mem_iff.1 (by simp [hr])
    have hg := hinv.good r hm
    have hc : ∀ cs ∈ r.chunks, cs.1 ∈ ds.chunks := fun cs hcs => by
      obtain ⟨g, g1, g2⟩ := hinv.mem r hm cs hcs
      rw [← g2]
      exact groups_mem (fun l => (hsort l).1) hl g g1
    obtain ⟨c, rest, e1, e2⟩ := hg.first
    obtain ⟨init, c', e3, e4⟩ := hg.last
    refine ⟨?_, ?_⟩
    · rcases hg.size with hs | hs
      · omega
      · have : r.chunks = [c] := by
          rw [e1] at hs ⊢
          cases rest with
          | nil => rfl
          | cons _ _ => simp at hs
        have ec : c' = c := by
          rw [this] at e3
          cases init with
          | nil => simpa using e3.symm
          | cons _ _ => simp at e3
        have := hM c.1 (hc c (by rw [e1]; simp))
        rw [e2, e4, ec]; omega
    · have := hg.inside c (by rw [e1]; simp)
      have := (hpos c.1 (hc c (by rw [e1]; simp))).1
      omega
  unfold answerBytes
  refine Nat.le_trans (sum_le_mul (m := max 8388608 M) ?_) ?_
  · intro x hx
    obtain ⟨r, hr, rfl⟩ := List.mem_map.1 hx
    obtain ⟨k1, k2⟩ := key r hr
    cases hs : server r.start (r.stop - 1) with
    | none => simp
    | some a =>
      obtain ⟨st, body⟩ := a
      have := hsrv _ _ _ _ hs
      simp only; omega
  · rw [List.length_map]
    exact Nat.mul_le_mul_right _ h1

/-! ## Dropping the future -/

/-- C83: if the future of an S3 read is dropped (a timeout, a `select`), at whatever point, every byte of
the destination is as it was before the call or as the undisturbed read would have left it. For servers
as in C66. -/
theorem C83_dropped {p : Profile} {io : Io} {file : List Byte} {ds : Dataset} {ext : Extents}
    {sort sort' : List GItem → List GItem} {server : Server} {dst : List Byte}
    {csz vsz k n : Nat} {reqs : List Request} {s : FlightSt}
    (hwf : WF p ds) (hfit : EndsFit ds ext) (hkeep : KeepsNeededS3 ds ext file server)
    (hdet : AddrDet ds) (hpos : ∀ c ∈ ds.chunks, 0 < c.size ∧ c.addr + c.size < W)
    (hlen : file.length < 2 ^ 63) (hsort : ∀ l, SortedByAddr l (sort l))
    (hsort' : ∀ l, SortedByAddr l (sort' l)) (hW : dst.length < W)
    (hok : (directReadTo p (withFile io file) ds sort' ext dst).1 = ok n)
    (hpre : s3Prelude p ds sort ext dst.length = ok (csz, vsz, reqs))
    (h : FlightRun p io.inflate ds csz server (.init reqs dst) k s) :
    s.st.dst.length = dst.length ∧ ∀ i : Nat, s.st.dst[i]? = dst[i]? ∨
      s.st.dst[i]? = (directReadTo p (withFile io file) ds sort' ext dst).2[i]? := by
  obtain ⟨csz', reqs', hpre', hrok, hans, hgood, hrun⟩ := s3_undisturbed (io := io) (sort := sort) hwf hfit
    hdet hpos hlen hsort hsort' hW hok
  have e := Outcome.ok.inj (hpre.symm.trans hpre')
  simp only [Prod.mk.injEq] at e
  obtain ⟨rfl, rfl, rfl⟩ := e
  obtain ⟨-, h2, h3, -⟩ := flight_inv h
  have hmem : ∀ x, x ∈ s.handled → x ∈ reqs := fun x hx => h2.mem_iff.1 (by simp [hx])
  obtain ⟨t, ht, htd⟩ := hrun _ h2
  rw [List.flatMap_append, List.foldlM_append] at ht
  obtain ⟨g, g1, -⟩ := bind_eq_ok.1 ht
  rcases requests_until (st := ⟨[], 0, [], dst⟩) (server := server)
    (fun x hx => hgood x (hmem x hx)) (fun x hx => hans server hkeep x (hmem x hx)) g1 rfl with
    ⟨t', c1, c2⟩ | ⟨t', pre, post, s', c1, c2, c3, c4⟩
  · rw [loop_ok_iff.2 h3] at c1
    obtain rfl := (Prod.mk.inj c1).2
    rw [c2]
    exact handled_old_or_new (io := io) hgood hrun h2 g1
  · rw [loop_ok_iff.2 h3] at c1
    simp at c1

/-- C83 with C17: whatever the network does, an S3 read of a good selection of an object that stores the
array `A` returns the bytes of the selected elements. -/
theorem C83_stored {p : Profile} {io : Io} {file : List Byte} {ds : Dataset}
    {A : List Nat → List Byte} {ext : Extents} {start count : List Nat}
    {sort : List GItem → List GItem} {server : Server}
    {dst : List Byte} (h : Setup p io file ds A ext start count) (hg : Good p ds start count)
    (hpos : ∀ c ∈ ds.chunks, 0 < c.size) (hsrv : Serves file server)
    (hsort : ∀ l, SortedByAddr l (sort l))
    (hd : count.prod * ds.dsize ≤ dst.length) {r : Outcome Nat × List Byte}
    (hr : S3Call p io.inflate ds sort server ext dst r) :
    r = (ok (count.prod * ds.dsize), selected A start count ++ dst.drop (count.prod * ds.dsize)) := by
  obtain ⟨complete, h1, rfl⟩ := C83_order hr
  exact C17_stored_partial h hg hpos hsrv hsort h1 hd

/-! ## Instances -/

example (p : Profile) (dst : List Byte) (hd : 12 ≤ dst.length) :
    ∃ r, S3Call p Demo.io.inflate Demo.ds sortByAddr (honest Demo.file) Demo.ext dst r ∧ r.1 = ok 12 := by
  obtain ⟨r, hr⟩ := C83_some p Demo.io.inflate Demo.ds sortByAddr (honest Demo.file) Demo.ext dst
  refine ⟨r, hr, ?_⟩
  rw [C83_stored (Demo.setup p) Demo.good (by decide) (honest_serves _) sortByAddr_ok
    (by simpa [Demo.ds, Dataset.dsize] using hd) hr]
  rfl

/-- Eighteen requests: sixteen are started, the seventeenth has to wait. -/
example (p : Profile) (inflate : List Byte → Option (List Byte)) (ds : Dataset) (server : Server)
    (r : Request) (dst : List Byte) :
    FlightRun p inflate ds 8 server (.init (List.replicate 18 r) dst) 16
      ⟨[r, r], List.replicate 16 r, [], ⟨[], 0, [], dst⟩⟩ ∧
    ¬ ∃ t, FlightStep p inflate ds 8 server ⟨[r, r], List.replicate 16 r, [], ⟨[], 0, [], dst⟩⟩ t ∧
      t.handled = [] := by
  constructor
  · have key : ∀ k, k ≤ 16 → FlightRun p inflate ds 8 server (.init (List.replicate 18 r) dst) k
        ⟨List.replicate (18 - k) r, List.replicate k r, [], ⟨[], 0, [], dst⟩⟩ := by
      intro k
      induction k with
      | zero => intro _; exact .nil
      | succ k ih =>
        intro hk
        refine .snoc k _ _ (ih (by omega)) ?_
        have e : 18 - k = (18 - (k + 1)) + 1 := by omega
        have := FlightStep.start (p := p) (inflate := inflate) (ds := ds) (chunkSz := 8) (server := server)
          ⟨List.replicate (18 - k) r, List.replicate k r, [], ⟨[], 0, [], dst⟩⟩ r
          (List.replicate (18 - (k + 1)) r) (by rw [e]; rfl)
          (by simp only [List.length_replicate]; unfold concurrentRequests; omega)
        rw [List.replicate_succ']
        exact this
    exact key 16 (by decide)
  · rintro ⟨t, h, ht⟩
    cases h with
    | start r rest hw hlt => simp [concurrentRequests] at hlt
    | handle r pre post st' hf hfull hr => simp at ht

end Hidefix.Props
