import Verif.Props.Poll
import Verif.Props.Fetches

/-!
# What the polls of a stream read, together (C64, C69)

A stream keeps its cache from one poll to the next: over its whole life no chunk is read twice (if its chunks fit into the
cache), whatever the file holds at each poll, and on a file that stays as it is the polls together read what the stream
consumed to its end reads.
-/

set_option autoImplicit false

namespace Hidefix.Props
open Hidefix Spec Proofs Outcome

/-- All ranges that polls have read, in order. -/
def readBy {α : Type} (l : List (α × List (Nat × Nat))) : List (Nat × Nat) := l.flatMap Prod.snd

theorem readBy_cons {α : Type} (a : α) (r : List (Nat × Nat)) (l : List (α × List (Nat × Nat))) :
    readBy ((a, r) :: l) = r ++ readBy l := rfl

section
variable {p : Profile} {rt : Rt} {io : Io} {ds : Dataset} {csz : Nat} {factor : Outcome Nat}
  {conv : List Byte → Outcome (List Byte)}

/-- The cache of the generator holds the chunks at `done`, and is large enough for the ones at `all`, among which are all
that are still to come. -/
def Keeps (all done : List Nat) : Gen → Prop
  | .fresh cap slices => done = [] ∧ all.length ≤ cap ∧ ∀ b ∈ slices, b.addr ∈ all
  | .running lru slices => Recent all done lru ∧ all.length ≤ lru.cap ∧ ∀ b ∈ slices, b.addr ∈ all
  | _ => True

theorem streamItem_lru {f : List Byte} {lru lru' : Lru} {b : BSlice} {src : List Byte}
    (h : streamItem p rt io f ds csz factor conv lru b = ok (src, lru')) :
    (∃ v, lru.get b.addr = some (v, lru')) ∨ ∃ v, lru' = lru.put b.addr v := by
  have : streamStep p rt io f ds csz factor conv ⟨lru, []⟩ b = ok ⟨lru', [] ++ [src]⟩ := by
    rw [streamStep_item]; simp only [h, ok_bind]
  exact streamStep_lru this

theorem resume_keeps {all done : List Nat} {f : List Byte} {lru : Lru} {slices : List BSlice}
    (hr : Recent all done lru) (hc : all.length ≤ lru.cap) (hs : ∀ b ∈ slices, b.addr ∈ all) :
    let r := Gen.resume p rt io ds csz factor conv f lru slices
    (r.2.2.map Prod.fst).Nodup ∧ (∀ x ∈ r.2.2, x.1 ∉ done) ∧ Keeps all (done ++ r.2.2.map Prod.fst) r.2.1 := by
  cases slices with
  | nil => simp [Gen.resume, Keeps]
  | cons b bs =>
    have hone : ((streamFetch ⟨lru, []⟩ b).toList.map Prod.fst).Nodup := by
      cases streamFetch ⟨lru, []⟩ b <;> simp
    have hnew : ∀ x ∈ (streamFetch ⟨lru, []⟩ b).toList, x.1 ∉ done ∧ x = (b.addr, b.size) := by
      intro x hx
      rw [stream_need] at hx
      split at hx
      · rename_i hn
        simp only [Option.toList_some, List.mem_singleton] at hx
        subst hx
        refine ⟨fun hd => ?_, rfl⟩
        rw [Lru.get_none] at hn
        obtain ⟨pre, suf, h0, -, -, h3⟩ := hr
        exact hn (by rw [h0]; exact List.mem_append.2 (.inl (h3 _ hd)))
      · simp at hx
    unfold Gen.resume
    cases hi : streamItem p rt io f ds csz factor conv lru b with
    | ok x =>
      obtain ⟨src, lru'⟩ := x
      have hk := hs b (by simp)
      have hrec : Recent all (done ++ [b.addr]) lru' ∧ lru'.cap = lru.cap := by
        rcases streamItem_lru hi with ⟨v, hg⟩ | ⟨v, rfl⟩
        · exact ⟨hr.get hk hg, (Lru.get_keys hg).1⟩
        · exact ⟨hr.put hk hc, rfl⟩
      simp only [hi]
      refine ⟨hone, fun x hx => (hnew x hx).1, ?_, by rw [hrec.2]; exact hc, fun x hx => hs x (by simp [hx])⟩
      obtain ⟨pre, suf, h0, h1, h2, h3⟩ := hrec.1
      refine ⟨pre, suf, h0, h1, h2, fun k hk => h3 k ?_⟩
      rcases List.mem_append.1 hk with hk | hk
      · simp [hk]
      · obtain ⟨x, hx, rfl⟩ := List.mem_map.1 hk
        rw [(hnew x hx).2]; simp
    | _ => simp only [hi]; exact ⟨hone, fun x hx => (hnew x hx).1, trivial⟩

theorem poll_keeps {all done : List Nat} {g : Gen} (h : Keeps all done g) (file : Option (List Byte)) :
    let r := g.poll p rt io ds csz factor conv file
    (r.2.2.map Prod.fst).Nodup ∧ (∀ x ∈ r.2.2, x.1 ∉ done) ∧ Keeps all (done ++ r.2.2.map Prod.fst) r.2.1 := by
  cases g with
  | fresh cap slices =>
    obtain ⟨rfl, h1, h2⟩ := h
    cases file with
    | none => simp [Gen.poll, Keeps]
    | some f => exact resume_keeps ⟨[], [], rfl, by simp, by simp, by simp⟩ h1 h2
  | running lru slices =>
    obtain ⟨h0, h1, h2⟩ := h
    cases file with
    | some f => exact resume_keeps h0 h1 h2
    | none =>
      cases slices with
      | nil => simp [Gen.poll, Keeps]
      | cons b bs =>
        have hr := resume_keeps (p := p) (rt := rt) (io := io) (ds := ds) (csz := csz) (factor := factor) (conv := conv)
          (f := []) h0 h1 h2
        unfold Gen.poll
        simp only
        cases hf : streamFetch ⟨lru, []⟩ b with
        | none => exact hr
        | some r =>
          have e : (Gen.resume p rt io ds csz factor conv [] lru (b :: bs)).2.2 = [r] := by
            simp only [Gen.resume, hf]
            cases streamItem p rt io [] ds csz factor conv lru b <;> rfl
          exact ⟨by simp, fun x hx => hr.2.1 x (by rw [e]; exact hx), trivial⟩
  | ended => simp [Gen.poll, Keeps]
  | broken o => simp [Gen.poll, Keeps]

theorem polls_once {all : List Nat} (disks : List (Option (List Byte))) :
    ∀ {done : List Nat} {g : Gen}, Keeps all done g →
      ((readBy (Gen.polls p rt io ds csz factor conv disks g)).map Prod.fst).Nodup ∧
      ∀ x ∈ readBy (Gen.polls p rt io ds csz factor conv disks g), x.1 ∉ done := by
  induction disks with
  | nil => intro done g _; simp [Gen.polls, readBy]
  | cons f fs ih =>
    intro done g h
    obtain ⟨h1, h2, h3⟩ := poll_keeps (p := p) (rt := rt) (io := io) (ds := ds) (csz := csz) (factor := factor)
      (conv := conv) h f
    obtain ⟨k1, k2⟩ := ih h3
    unfold readBy at k1 k2 ⊢
    simp only [Gen.polls, List.flatMap_cons, List.map_append]
    refine ⟨List.nodup_append.2 ⟨h1, k1, ?_⟩, ?_⟩
    · rintro x hx _ hy rfl
      obtain ⟨r, hr, e⟩ := List.mem_map.1 hy
      refine k2 r hr ?_
      rw [e]
      exact List.mem_append.2 (.inr hx)
    · intro x hx
      rcases List.mem_append.1 hx with hx | hx
      · exact h2 x hx
      · exact fun hd => k2 x hx (List.mem_append.2 (.inl hd))

/-- On a file that stays as it is, the first `k` polls read what the first `k` rounds of the loop read; and all of it once
the stream has said that there is nothing more. -/
theorem polls_fetches {file : List Byte} (slices : List BSlice) :
    ∀ (lru : Lru) (out : List (List Byte)) (k : Nat),
      readBy (Gen.polls p rt io ds csz factor conv (List.replicate k (some file)) (.running lru slices)) <+:
        loopFetches (streamStep p rt io file ds csz factor conv) streamFetch ⟨lru, out⟩ slices ∧
      (none ∈ (Gen.polls p rt io ds csz factor conv (List.replicate k (some file)) (.running lru slices)).map Prod.fst →
        readBy (Gen.polls p rt io ds csz factor conv (List.replicate k (some file)) (.running lru slices)) =
          loopFetches (streamStep p rt io file ds csz factor conv) streamFetch ⟨lru, out⟩ slices) := by
  have hend : ∀ (l : List (Option (List Byte))) (x : Option (Outcome (List Byte))),
      readBy (l.map fun _ => (x, ([] : List (Nat × Nat)))) = [] := by
    intro l x; induction l with
    | nil => rfl
    | cons a l ih => simpa [readBy] using ih
  induction slices with
  | nil =>
    intro lru out k
    have : readBy (Gen.polls p rt io ds csz factor conv (List.replicate k (some file)) (.running lru [])) = [] := by
      cases k with
      | zero => rfl
      | succ k =>
        rw [List.replicate_succ]
        simp only [Gen.polls, Gen.poll, Gen.resume, polls_ended]
        simp only [readBy, List.flatMap_cons, List.nil_append]
        exact hend _ _
    rw [this]
    exact ⟨List.nil_prefix, fun _ => rfl⟩
  | cons b bs ih =>
    intro lru out k
    cases k with
    | zero => exact ⟨List.nil_prefix, fun h => by simp [Gen.polls] at h⟩
    | succ k =>
      have hst : streamStep p rt io file ds csz factor conv ⟨lru, out⟩ b =
        (streamItem p rt io file ds csz factor conv lru b >>= fun x => ok ⟨x.2, out ++ [x.1]⟩) :=
        streamStep_item
      have hn : streamFetch ⟨lru, out⟩ b = streamFetch ⟨lru, []⟩ b := rfl
      rw [List.replicate_succ]
      unfold loopFetches
      simp only [hst, hn, Gen.polls, Gen.poll, Gen.resume]
      cases hi : streamItem p rt io file ds csz factor conv lru b with
      | ok x =>
        obtain ⟨src, lru'⟩ := x
        obtain ⟨h1, h2⟩ := ih lru' (out ++ [src]) k
        simp only [ok_bind, readBy, List.flatMap_cons, List.map_cons, List.mem_cons]
        refine ⟨(List.prefix_append_right_inj _).2 h1, fun h => ?_⟩
        rcases h with h | h
        · cases h
        · exact congrArg _ (h2 h)
      | err e =>
        simp only [polls_ended, err_bind, readBy_cons, hend, List.append_nil]
        exact ⟨List.prefix_rfl, fun _ => trivial⟩
      | panic e =>
        simp only [polls_broken, panic_bind, readBy_cons, hend, List.append_nil]
        exact ⟨List.prefix_rfl, fun _ => trivial⟩
      | ub =>
        simp only [polls_broken, ub_bind, readBy_cons, hend, List.append_nil]
        exact ⟨List.prefix_rfl, fun _ => trivial⟩
      | diverge =>
        simp only [polls_broken, diverge_bind, readBy_cons, hend, List.append_nil]
        exact ⟨List.prefix_rfl, fun _ => trivial⟩

end

theorem streamNew_keeps {p : Profile} {ds : Dataset} {ext : Extents} {csz : Nat} {g : Gen} {L : List Chunk}
    (hwf : WF p ds) (hfit : EndsFit ds ext) (hL : FitsCache p ds ext L) (h : streamNew p ds ext = ok (csz, g)) :
    Keeps (L.map Chunk.addr) [] g := by
  have hn := streamNew_need hwf hfit h
  unfold streamNew at h
  obtain ⟨csz', hc, h⟩ := bind_eq_ok.1 h
  obtain ⟨slices, hsl, h⟩ := bind_eq_ok.1 h
  obtain ⟨cap, hcap, h⟩ := bind_eq_ok.1 h
  obtain ⟨rfl, rfl⟩ := Prod.mk.inj (Outcome.ok.inj h)
  have hpos : 0 < csz' := by
    unfold lruCap at hcap
    split at hcap
    · simp at hcap
    · omega
  refine ⟨rfl, ?_, fun b hb => ?_⟩
  · rw [List.length_map, (lruCap_pos hcap).2]; exact hL.cap hc hpos
  · obtain ⟨start, count, c, hsel, hc, e⟩ := hn b hb
    obtain ⟨e1, -⟩ := Prod.mk.inj e
    rw [e1]
    exact List.mem_map_of_mem (hL.needed _ _ hsel _ hc)

/-- C64, streams as they are polled: if the needed chunks fit into the cache, no chunk is read twice over the whole life of
the stream, however often it is polled, whatever the file holds at each poll and whatever fails. -/
theorem C64_polls {p : Profile} {rt : Rt} {io : Io} {ds : Dataset} {ext : Extents} {L : List Chunk} (hwf : WF p ds)
    (hfit : EndsFit ds ext) (hL : FitsCache p ds ext L) (disks : List (Option (List Byte)))
    {l : List (Option (Outcome (List Byte)) × List (Nat × Nat))}
    (h : streamPolls p rt io ds ext disks = ok l) : ((readBy l).map Prod.fst).Nodup := by
  unfold streamPolls at h
  obtain ⟨⟨csz, g⟩, h1, h⟩ := bind_eq_ok.1 h
  obtain rfl := Outcome.ok.inj h
  exact (polls_once disks (streamNew_keeps hwf hfit hL h1)).1

/-- C64, XDR streams as they are polled. -/
theorem C64_polls_xdr {p : Profile} {rt : Rt} {hst : Host} {io : Io} {ds : Dataset} {ext : Extents} {L : List Chunk}
    (hwf : WF p ds) (hfit : EndsFit ds ext) (hL : FitsCache p ds ext L) (disks : List (Option (List Byte)))
    {l : List (Option (Outcome (List Byte)) × List (Nat × Nat))}
    (h : streamXdrPolls p rt hst io ds ext disks = ok l) : ((readBy l).map Prod.fst).Nodup := by
  unfold streamXdrPolls at h
  obtain ⟨⟨csz, g⟩, h1, h⟩ := bind_eq_ok.1 h
  obtain rfl := Outcome.ok.inj h
  exact (polls_once disks (streamNew_keeps hwf hfit hL h1)).1

/-- C69: on a file that stays as it is, what the polls have read so far is the beginning of what the stream consumed to
its end reads (`streamFetches`, of which C64 speaks), and all of it once a poll has said that there is nothing more. For
every dataset and selection, also if the chunks do not fit into the cache. -/
theorem C69_fetches {p : Profile} {rt : Rt} {io : Io} {ds : Dataset} {ext : Extents} {k : Nat}
    {l : List (Option (Outcome (List Byte)) × List (Nat × Nat))}
    (h : streamPolls p rt io ds ext (List.replicate k io.file) = ok l) :
    readBy l <+: streamFetches p rt io ds ext ∧
    (none ∈ l.map Prod.fst → readBy l = streamFetches p rt io ds ext) := by
  unfold streamPolls streamNew at h
  obtain ⟨⟨csz, g⟩, h1, h⟩ := bind_eq_ok.1 h
  obtain rfl := Outcome.ok.inj h
  obtain ⟨csz', hc, h1⟩ := bind_eq_ok.1 h1
  obtain ⟨slices, hsl, h1⟩ := bind_eq_ok.1 h1
  obtain ⟨cap, hcap, h1⟩ := bind_eq_ok.1 h1
  obtain ⟨rfl, rfl⟩ := Prod.mk.inj (Outcome.ok.inj h1)
  unfold streamFetches
  cases hf : io.file with
  | none =>
    have : ∀ k, readBy (Gen.polls p rt io ds csz' (ok 1) ok (List.replicate k none) (.fresh cap slices)) = [] := by
      intro k
      cases k with
      | zero => rfl
      | succ k =>
        rw [List.replicate_succ]
        simp only [Gen.polls, Gen.poll, polls_ended, readBy, List.flatMap_cons, List.nil_append]
        induction List.replicate k (none : Option (List Byte)) with
        | nil => rfl
        | cons a l ih => simp
    rw [this k]
    simp only [hc, hsl, hcap, ok_bind]
    exact ⟨List.nil_prefix, fun _ => trivial⟩
  | some file =>
    simp only [hc, hsl, hcap, ok_bind]
    have : Gen.polls p rt io ds csz' (ok 1) ok (List.replicate k (some file)) (.fresh cap slices) =
        Gen.polls p rt io ds csz' (ok 1) ok (List.replicate k (some file)) (.running ⟨cap, []⟩ slices) := by
      cases k with
      | zero => rfl
      | succ k => rw [List.replicate_succ]; simp only [Gen.polls, Gen.poll]
    rw [this]
    exact polls_fetches slices ⟨cap, []⟩ [] k

/-! A case that meets the hypotheses: the first two rows of `Demo.ds`, which alternate between two chunks, polled while the
file is lost for a while. -/

example (p : Profile) (rt : Rt) (l : List (Option (Outcome (List Byte)) × List (Nat × Nat)))
    (h : streamPolls p rt Demo.io Demo.ds topRows [some Demo.file, some [], none, some Demo.file] = ok l) :
    ((readBy l).map Prod.fst).Nodup :=
  C64_polls (Demo.wf p) topRows_fit (topRows_cache p) _ h

/-- Four slices, two reads. -/
example : (streamPolls .release .multiThread Demo.io Demo.ds topRows (List.replicate 6 (some Demo.file)) >>= fun l =>
    ok (readBy l, (l.map Prod.fst).length)) = ok ([(9, 9), (0, 9)], 6) := by decide +kernel

end Hidefix.Props
