import Verif.Model.Poll
import Verif.Props.Fetches
import Verif.Props.Unsteady

/-!
# Property C69: streams work as they are polled

Creating a stream does not touch the file. Every poll reads at most one chunk, and only when the next
element to be delivered lies in it; what has been answered so far depends on nothing but the ranges
read so far. The polls answer with the items of the stream in order, then once with the error that ended
it, then that there is nothing more.
-/

set_option autoImplicit false

namespace Hidefix.Props
open Hidefix Hidefix.Spec Hidefix.Proofs Outcome

/-- What the `i`-th poll of a stream answers, if the stream yields the items of `t` and then ends as `t`
does: an item, the error, the panic, or (`none`) that there is nothing more. -/
def answer (t : Trace (List Byte)) (i : Nat) : Option (Outcome (List Byte)) :=
  match t.items[i]? with
  | some b => some (ok b)
  | none =>
    match t.ending with
    | ok _ => none
    | err e => if i = t.items.length then some (err e) else none
    | .panic x => some (.panic x)
    | ub => some ub
    | diverge => some diverge

/-- The number of bytes that polls have delivered. -/
def delivered {α : Type} (l : List (Option (Outcome (List Byte)) × α)) : Nat :=
  (l.map fun a => match a.1 with
    | some (ok b) => b.length
    | _ => 0).sum

theorem streamStep_item {p : Profile} {rt : Rt} {io : Io} {file : List Byte} {ds : Dataset}
    {csz : Nat} {factor : Outcome Nat} {conv : List Byte → Outcome (List Byte)} {s : StreamSt}
    {b : BSlice} : streamStep p rt io file ds csz factor conv s b =
      (streamItem p rt io file ds csz factor conv s.cache b >>= fun x => ok ⟨x.2, s.out ++ [x.1]⟩) := by
  unfold streamStep streamItem
  simp only [Outcome.bind_assoc]
  congr 1; funext x
  congr 1; funext start
  congr 1; funext stop
  congr 1; funext _
  cases s.cache.get b.addr <;> simp only [Outcome.bind_assoc, ok_bind]

theorem answer_cons {x : List Byte} {its : List (List Byte)} {e : Outcome Unit} (k : Nat) :
    (List.range (k + 1)).map (answer ⟨x :: its, e⟩) =
      some (ok x) :: (List.range k).map (answer ⟨its, e⟩) := by
  rw [List.range_succ_eq_map, List.map_cons, List.map_map]
  congr 1
  apply List.map_congr_left
  intro i _
  simp [answer, Function.comp]

section
variable {p : Profile} {rt : Rt} {io : Io} {ds : Dataset} {csz : Nat} {factor : Outcome Nat}
  {conv : List Byte → Outcome (List Byte)}

theorem polls_ended (disks : List (Option (List Byte))) :
    Gen.polls p rt io ds csz factor conv disks .ended = disks.map fun _ => (none, []) := by
  induction disks with
  | nil => rfl
  | cons f fs ih => simp only [Gen.polls, Gen.poll, List.map_cons, ih]

theorem polls_broken (o : Outcome (List Byte)) (disks : List (Option (List Byte))) :
    Gen.polls p rt io ds csz factor conv disks (.broken o) = disks.map fun _ => (some o, []) := by
  induction disks with
  | nil => rfl
  | cons f fs ih => simp only [Gen.polls, Gen.poll, List.map_cons, ih]

theorem map_const_range {α β : Type} (k : Nat) (f : α) (x : β) (g : Nat → β) (h : ∀ i, g i = x) :
    (List.replicate k f).map (fun _ => x) = (List.range k).map g := by
  induction k with
  | zero => rfl
  | succ k ih =>
    rw [List.replicate_succ', List.map_append, ih, List.range_succ, List.map_append]
    simp [h]

theorem polls_running {file : List Byte} (slices : List BSlice) (lru : Lru) (out : List (List Byte)) :
    ∃ its, (loop (streamStep p rt io file ds csz factor conv) ⟨lru, out⟩ slices).2.out = out ++ its ∧
      ∀ k, (Gen.polls p rt io ds csz factor conv (List.replicate k (some file))
          (.running lru slices)).map Prod.fst =
        (List.range k).map (answer ⟨its,
          (loop (streamStep p rt io file ds csz factor conv) ⟨lru, out⟩ slices).1⟩) := by
  induction slices generalizing lru out with
  | nil =>
    refine ⟨[], by simp [loop], fun k => ?_⟩
    cases k with
    | zero => rfl
    | succ k =>
      rw [List.replicate_succ]
      simp only [Gen.polls, Gen.poll, Gen.resume, polls_ended, loop]
      rw [← map_const_range (k + 1) (some file) none _ (fun i => by simp [answer]), List.replicate_succ]
      simp
  | cons b bs ih =>
    have hst : streamStep p rt io file ds csz factor conv ⟨lru, out⟩ b =
      (streamItem p rt io file ds csz factor conv lru b >>= fun x => ok ⟨x.2, out ++ [x.1]⟩) :=
      streamStep_item
    unfold loop
    rw [hst]
    cases hi : streamItem p rt io file ds csz factor conv lru b with
    | ok x =>
      obtain ⟨src, lru'⟩ := x
      simp only [ok_bind]
      obtain ⟨its, h1, h2⟩ := ih lru' (out ++ [src])
      refine ⟨src :: its, by rw [h1]; simp, fun k => ?_⟩
      cases k with
      | zero => rfl
      | succ k =>
        rw [answer_cons, ← h2 k, List.replicate_succ]
        simp only [Gen.polls, Gen.poll, Gen.resume, hi, List.map_cons]
    | err e =>
      refine ⟨[], by simp, fun k => ?_⟩
      cases k with
      | zero => rfl
      | succ k =>
        rw [List.replicate_succ]
        simp only [Gen.polls, Gen.poll, Gen.resume, hi, List.map_cons, polls_ended, List.map_map,
          Function.comp_def, err_bind]
        rw [List.range_succ_eq_map, List.map_cons, List.map_map]
        rw [map_const_range k (some file) none (answer ⟨[], err e⟩ ∘ Nat.succ)
          (fun i => by simp [answer])]
        simp [answer]
    | panic x =>
      refine ⟨[], by simp, fun k => ?_⟩
      cases k with
      | zero => rfl
      | succ k =>
        rw [List.replicate_succ]
        simp only [Gen.polls, Gen.poll, Gen.resume, hi, List.map_cons, polls_broken, List.map_map,
          Function.comp_def, panic_bind]
        rw [← map_const_range (k + 1) (some file) (some (.panic x)) _ (fun i => by simp [answer]),
          List.replicate_succ, List.map_cons]
    | ub =>
      refine ⟨[], by simp, fun k => ?_⟩
      cases k with
      | zero => rfl
      | succ k =>
        rw [List.replicate_succ]
        simp only [Gen.polls, Gen.poll, Gen.resume, hi, List.map_cons, polls_broken, List.map_map,
          Function.comp_def, ub_bind]
        rw [← map_const_range (k + 1) (some file) (some ub) _ (fun i => by simp [answer]),
          List.replicate_succ, List.map_cons]
    | diverge =>
      refine ⟨[], by simp, fun k => ?_⟩
      cases k with
      | zero => rfl
      | succ k =>
        rw [List.replicate_succ]
        simp only [Gen.polls, Gen.poll, Gen.resume, hi, List.map_cons, polls_broken, List.map_map,
          Function.comp_def, diverge_bind]
        rw [← map_const_range (k + 1) (some file) (some diverge) _ (fun i => by simp [answer]),
          List.replicate_succ, List.map_cons]

/-- The polls of a new stream on a file that stays as it is. -/
theorem polls_fresh (cap : Nat) (slices : List BSlice) (k : Nat) :
    (Gen.polls p rt io ds csz factor conv (List.replicate k io.file) (.fresh cap slices)).map Prod.fst =
      (List.range k).map (answer (streamRun p rt io ds csz cap factor conv slices)) := by
  cases hf : io.file with
  | none =>
    unfold streamRun
    rw [hf]
    cases k with
    | zero => rfl
    | succ k =>
      rw [List.replicate_succ]
      simp only [Gen.polls, Gen.poll, List.map_cons, polls_ended, List.map_map, Function.comp_def]
      rw [List.range_succ_eq_map, List.map_cons, List.map_map]
      rw [map_const_range k none none (answer ⟨[], err .io⟩ ∘ Nat.succ) (fun i => by simp [answer])]
      simp [answer]
  | some file =>
    obtain ⟨its, h1, h2⟩ := polls_running (p := p) (rt := rt) (io := io) (ds := ds) (csz := csz)
      (factor := factor) (conv := conv) (file := file) slices ⟨cap, []⟩ []
    have : Gen.polls p rt io ds csz factor conv (List.replicate k (some file)) (.fresh cap slices) =
        Gen.polls p rt io ds csz factor conv (List.replicate k (some file)) (.running ⟨cap, []⟩ slices) := by
      cases k with
      | zero => rfl
      | succ k => rw [List.replicate_succ]; simp only [Gen.polls, Gen.poll]
    rw [this, h2 k]
    unfold streamRun
    rw [hf]
    simp only [h1, List.nil_append]

/-! ## What polls read -/

/-- The slices that a stream has still to deliver. -/
def _root_.Hidefix.Gen.rest : Gen → List BSlice
  | .fresh _ l => l
  | .running _ l => l
  | _ => []

theorem resume_reads (file : List Byte) (lru : Lru) (slices : List BSlice) :
    let r := Gen.resume p rt io ds csz factor conv file lru slices
    (r.2.2.length ≤ 1 ∧ ∀ x ∈ r.2.2, ∃ b ∈ slices.head?, x = (b.addr, b.size)) ∧
    (r.2.1.rest = [] ∨ r.2.1.rest = slices.tail) := by
  cases slices with
  | nil => simp [Gen.resume, Gen.rest]
  | cons b bs =>
    have h1 : ((streamFetch ⟨lru, []⟩ b).toList).length ≤ 1 := by
      cases streamFetch ⟨lru, []⟩ b <;> simp
    have h2 : ∀ x ∈ (streamFetch ⟨lru, []⟩ b).toList, x = (b.addr, b.size) := by
      intro x hx
      unfold streamFetch at hx
      split at hx <;> simp at hx
      exact hx
    unfold Gen.resume
    simp only [List.head?_cons, Option.mem_def, Option.some.injEq, exists_eq_left', List.tail_cons]
    cases streamItem p rt io file ds csz factor conv lru b with
    | ok x => exact ⟨⟨h1, h2⟩, .inr rfl⟩
    | _ => exact ⟨⟨h1, h2⟩, .inl rfl⟩

theorem poll_reads (file : Option (List Byte)) (g : Gen) :
    let r := g.poll p rt io ds csz factor conv file
    (r.2.2.length ≤ 1 ∧ ∀ x ∈ r.2.2, ∃ b ∈ g.rest.head?, x = (b.addr, b.size)) ∧
    (r.2.1.rest = [] ∨ r.2.1.rest = g.rest.tail) := by
  cases g with
  | fresh cap slices =>
    cases file with
    | none => simp [Gen.poll, Gen.rest]
    | some f => exact resume_reads f _ slices
  | running lru slices =>
    cases file with
    | some f => exact resume_reads f _ slices
    | none =>
      cases slices with
      | nil => simp [Gen.poll, Gen.rest]
      | cons b bs =>
        unfold Gen.poll
        simp only
        cases hf : streamFetch ⟨lru, []⟩ b with
        | none => exact resume_reads [] _ (b :: bs)
        | some r =>
          unfold streamFetch at hf
          split at hf
          · simp at hf
          · obtain rfl := Option.some.inj hf
            simp [Gen.rest]
  | ended => simp [Gen.poll, Gen.rest]
  | broken o => simp [Gen.poll, Gen.rest]

theorem polls_length (disks : List (Option (List Byte))) (g : Gen) :
    (Gen.polls p rt io ds csz factor conv disks g).length = disks.length := by
  induction disks generalizing g with
  | nil => rfl
  | cons f fs ih => simp only [Gen.polls, List.length_cons, ih]

theorem polls_reads (disks : List (Option (List Byte))) (g : Gen) :
    ∀ a ∈ Gen.polls p rt io ds csz factor conv disks g,
      a.2.length ≤ 1 ∧ ∀ x ∈ a.2, ∃ b ∈ g.rest, x = (b.addr, b.size) := by
  induction disks generalizing g with
  | nil => simp [Gen.polls]
  | cons f fs ih =>
    obtain ⟨⟨h1, h2⟩, h3⟩ := poll_reads (p := p) (rt := rt) (io := io) (ds := ds) (csz := csz)
      (factor := factor) (conv := conv) f g
    intro a ha
    simp only [Gen.polls, List.mem_cons] at ha
    rcases ha with rfl | ha
    · refine ⟨h1, fun x hx => ?_⟩
      obtain ⟨b, hb, e⟩ := h2 x hx
      exact ⟨b, List.mem_of_mem_head? hb, e⟩
    · obtain ⟨q1, q2⟩ := ih _ a ha
      refine ⟨q1, fun x hx => ?_⟩
      obtain ⟨b, hb, e⟩ := q2 x hx
      rcases h3 with h | h
      · rw [h] at hb; simp at hb
      · rw [h] at hb; exact ⟨b, List.mem_of_mem_tail hb, e⟩

/-! ## Answers depend on what was read -/

theorem streamItem_same {f f' : List Byte} {lru : Lru} {b : BSlice}
    (h : ∀ r, streamFetch ⟨lru, []⟩ b = some r → (f.drop r.1).take r.2 = (f'.drop r.1).take r.2) :
    streamItem p rt io f ds csz factor conv lru b = streamItem p rt io f' ds csz factor conv lru b := by
  unfold streamItem
  unfold streamFetch at h
  cases hg : lru.get b.addr with
  | some v => rfl
  | none =>
    simp only [hg] at h
    have := readRaw_same (h _ rfl)
    simp only at this
    unfold readChunkTokio
    simp only [this]

theorem resume_same {f f' : List Byte} {lru : Lru} {slices : List BSlice}
    (h : ∀ r ∈ (Gen.resume p rt io ds csz factor conv f lru slices).2.2,
      (f.drop r.1).take r.2 = (f'.drop r.1).take r.2) :
    Gen.resume p rt io ds csz factor conv f lru slices =
      Gen.resume p rt io ds csz factor conv f' lru slices := by
  cases slices with
  | nil => rfl
  | cons b bs =>
    have h' : ∀ r, streamFetch ⟨lru, []⟩ b = some r → (f.drop r.1).take r.2 = (f'.drop r.1).take r.2 := by
      intro r hr
      apply h
      unfold Gen.resume
      simp only [hr]
      split <;> simp
    unfold Gen.resume
    simp only
    rw [streamItem_same h']

theorem poll_same {f f' : Option (List Byte)} {g : Gen} (hopen : f.isSome = f'.isSome)
    (h : ∀ c c', f = some c → f' = some c' → ∀ r ∈ (g.poll p rt io ds csz factor conv f).2.2,
      (c.drop r.1).take r.2 = (c'.drop r.1).take r.2) :
    g.poll p rt io ds csz factor conv f = g.poll p rt io ds csz factor conv f' := by
  cases f with
  | none => cases f' with
    | none => rfl
    | some c => simp at hopen
  | some c =>
    cases f' with
    | none => simp at hopen
    | some c' =>
      have h := h c c' rfl rfl
      cases g with
      | fresh cap slices => exact resume_same h
      | running lru slices => exact resume_same h
      | ended => rfl
      | broken o => rfl

theorem polls_same {disks disks' : List (Option (List Byte))} (hl : disks.length = disks'.length)
    {g : Gen} (hopen : ∀ (i : Nat) f f', disks[i]? = some f → disks'[i]? = some f' → f.isSome = f'.isSome)
    (h : ∀ (i : Nat) c c' a, disks[i]? = some (some c) → disks'[i]? = some (some c') →
      (Gen.polls p rt io ds csz factor conv disks g)[i]? = some a → ∀ r ∈ a.2,
      (c.drop r.1).take r.2 = (c'.drop r.1).take r.2) :
    Gen.polls p rt io ds csz factor conv disks g = Gen.polls p rt io ds csz factor conv disks' g := by
  induction disks generalizing disks' g with
  | nil => cases disks' with
    | nil => rfl
    | cons _ _ => simp at hl
  | cons f fs ih =>
    cases disks' with
    | nil => simp at hl
    | cons f' fs' =>
      have e := poll_same (p := p) (rt := rt) (io := io) (ds := ds) (csz := csz) (factor := factor)
        (conv := conv) (f := f) (f' := f') (g := g) (hopen 0 f f' rfl rfl) (fun c c' h1 h2 r hr =>
          h 0 c c' _ (by simp [h1]) (by simp [h2]) (by simp only [Gen.polls]; rfl) r hr)
      simp only [Gen.polls, ← e]
      congr 1
      refine ih (by simpa using hl) (fun i a b ha hb => hopen (i + 1) a b (by simpa using ha)
        (by simpa using hb)) (fun i c c' a ha hb hp => h (i + 1) c c' a (by simpa using ha)
          (by simpa using hb) ?_)
      simp only [Gen.polls, List.getElem?_cons_succ]
      exact hp

end

/-! ## C69 -/

/-- C69, the answers: on a file that stays as it is, the polls of a stream answer with the items that the
stream yields, in order, then (if it fails) once with the error, then that there is nothing more, however
often it is polled. For every dataset, file and selection; `streamBytes` is the stream consumed to its
end. -/
theorem C69_answers {p : Profile} {rt : Rt} {io : Io} {ds : Dataset} {ext : Extents}
    {t : Trace (List Byte)} (h : streamBytes p rt io ds ext = ok t) (k : Nat) :
    ∃ l, streamPolls p rt io ds ext (List.replicate k io.file) = ok l ∧
      l.map Prod.fst = (List.range k).map (answer t) := by
  unfold streamBytes at h
  obtain ⟨csz, h1, h⟩ := bind_eq_ok.1 h
  obtain ⟨slices, h2, h⟩ := bind_eq_ok.1 h
  obtain ⟨cap, h3, h⟩ := bind_eq_ok.1 h
  obtain rfl := Outcome.ok.inj h
  unfold streamPolls streamNew
  rw [h1, ok_bind, h2, ok_bind, h3, ok_bind, ok_bind]
  exact ⟨_, rfl, polls_fresh _ _ _⟩

theorem C69_answers_xdr {p : Profile} {rt : Rt} {h : Host} {io : Io} {ds : Dataset} {ext : Extents}
    {t : Trace (List Byte)} (hx : streamXdr p rt h io ds ext = ok t) (k : Nat) :
    ∃ l, streamXdrPolls p rt h io ds ext (List.replicate k io.file) = ok l ∧
      l.map Prod.fst = (List.range k).map (answer t) := by
  unfold streamXdr at hx
  obtain ⟨csz, h1, hx⟩ := bind_eq_ok.1 hx
  obtain ⟨slices, h2, hx⟩ := bind_eq_ok.1 hx
  obtain ⟨cap, h3, hx⟩ := bind_eq_ok.1 hx
  obtain rfl := Outcome.ok.inj hx
  unfold streamXdrPolls streamNew
  rw [h1, ok_bind, h2, ok_bind, h3, ok_bind, ok_bind]
  exact ⟨_, rfl, polls_fresh _ _ _⟩

theorem streamNew_need {p : Profile} {ds : Dataset} {ext : Extents} {csz : Nat} {g : Gen} (hwf : WF p ds)
    (hfit : EndsFit ds ext) (h : streamNew p ds ext = ok (csz, g)) :
    ∀ b ∈ g.rest, NeededRange ds ext (b.addr, b.size) := by
  unfold streamNew at h
  obtain ⟨csz, h1, h⟩ := bind_eq_ok.1 h
  obtain ⟨slices, hsl, h⟩ := bind_eq_ok.1 h
  obtain ⟨cap, h3, h⟩ := bind_eq_ok.1 h
  obtain ⟨-, rfl⟩ := Prod.mk.inj (Outcome.ok.inj h)
  unfold streamSlices at hsl
  obtain ⟨t, h1, hsl⟩ := bind_eq_ok.1 hsl
  obtain ⟨l'', h2, hsl⟩ := bind_eq_ok.1 hsl
  obtain ⟨_, -, hsl⟩ := bind_eq_ok.1 hsl
  obtain rfl := Outcome.ok.inj hsl
  obtain ⟨start, count, hsel, hn⟩ := slices_need hwf hfit h1
  intro b hb
  obtain ⟨it, hit, e1, e2⟩ := mapM_bslice h2 b hb
  exact ⟨start, count, it.chunk, hsel, hn it hit, by rw [e1, e2]⟩

/-- C69, the reads: whatever the file holds at each poll and whatever fails, every poll reads at most one
range of the file, which is that of a chunk that the selection needs. So a consumer who stops after `k`
polls has caused at most `k` reads; the call that creates the stream causes none. -/
theorem C69_reads {p : Profile} {rt : Rt} {io : Io} {ds : Dataset} {ext : Extents} (hwf : WF p ds)
    (hfit : EndsFit ds ext) (disks : List (Option (List Byte)))
    {l : List (Option (Outcome (List Byte)) × List (Nat × Nat))}
    (h : streamPolls p rt io ds ext disks = ok l) :
    l.length = disks.length ∧ ∀ a ∈ l, a.2.length ≤ 1 ∧ ∀ r ∈ a.2, NeededRange ds ext r := by
  unfold streamPolls at h
  obtain ⟨⟨csz, g⟩, h1, h⟩ := bind_eq_ok.1 h
  obtain rfl := Outcome.ok.inj h
  have hn := streamNew_need hwf hfit h1
  refine ⟨?_, fun a ha => ?_⟩
  · exact polls_length disks g
  · obtain ⟨q1, q2⟩ := polls_reads disks g a ha
    refine ⟨q1, fun r hr => ?_⟩
    obtain ⟨b, hb, rfl⟩ := q2 r hr
    exact hn b hb

theorem C69_reads_xdr {p : Profile} {rt : Rt} {h : Host} {io : Io} {ds : Dataset} {ext : Extents}
    (hwf : WF p ds) (hfit : EndsFit ds ext) (disks : List (Option (List Byte)))
    {l : List (Option (Outcome (List Byte)) × List (Nat × Nat))}
    (hx : streamXdrPolls p rt h io ds ext disks = ok l) :
    l.length = disks.length ∧ ∀ a ∈ l, a.2.length ≤ 1 ∧ ∀ r ∈ a.2, NeededRange ds ext r := by
  unfold streamXdrPolls at hx
  obtain ⟨⟨csz, g⟩, h1, hx⟩ := bind_eq_ok.1 hx
  obtain rfl := Outcome.ok.inj hx
  have hn := streamNew_need hwf hfit h1
  refine ⟨?_, fun a ha => ?_⟩
  · exact polls_length disks g
  · obtain ⟨q1, q2⟩ := polls_reads disks g a ha
    refine ⟨q1, fun r hr => ?_⟩
    obtain ⟨b, hb, rfl⟩ := q2 r hr
    exact hn b hb

/-- C69, nothing else matters: two runs of polls that can open the file alike and in which every poll
finds the same bytes in the range that it reads (if it reads one) have the same answers and read the same
ranges. So the answers so far do not depend on chunks that were not read yet: those may be damaged,
missing or not written yet. -/
theorem C69_so_far {p : Profile} {rt : Rt} {io : Io} {ds : Dataset} {ext : Extents}
    {disks disks' : List (Option (List Byte))} (hlen : disks.length = disks'.length)
    (hopen : ∀ (i : Nat) f f', disks[i]? = some f → disks'[i]? = some f' → f.isSome = f'.isSome)
    {l : List (Option (Outcome (List Byte)) × List (Nat × Nat))}
    (h : streamPolls p rt io ds ext disks = ok l)
    (hsame : ∀ (i : Nat) c c' a, disks[i]? = some (some c) → disks'[i]? = some (some c') →
      l[i]? = some a → ∀ r ∈ a.2, (c.drop r.1).take r.2 = (c'.drop r.1).take r.2) :
    streamPolls p rt io ds ext disks' = ok l := by
  unfold streamPolls at h ⊢
  obtain ⟨⟨csz, g⟩, h1, h⟩ := bind_eq_ok.1 h
  obtain rfl := Outcome.ok.inj h
  rw [h1, ok_bind]
  exact congrArg ok (polls_same hlen hopen hsame).symm

theorem C69_so_far_xdr {p : Profile} {rt : Rt} {h : Host} {io : Io} {ds : Dataset} {ext : Extents}
    {disks disks' : List (Option (List Byte))} (hlen : disks.length = disks'.length)
    (hopen : ∀ (i : Nat) f f', disks[i]? = some f → disks'[i]? = some f' → f.isSome = f'.isSome)
    {l : List (Option (Outcome (List Byte)) × List (Nat × Nat))}
    (hx : streamXdrPolls p rt h io ds ext disks = ok l)
    (hsame : ∀ (i : Nat) c c' a, disks[i]? = some (some c) → disks'[i]? = some (some c') →
      l[i]? = some a → ∀ r ∈ a.2, (c.drop r.1).take r.2 = (c'.drop r.1).take r.2) :
    streamXdrPolls p rt h io ds ext disks' = ok l := by
  unfold streamXdrPolls at hx ⊢
  obtain ⟨⟨csz, g⟩, h1, hx⟩ := bind_eq_ok.1 hx
  obtain rfl := Outcome.ok.inj hx
  rw [h1, ok_bind]
  exact congrArg ok (polls_same hlen hopen hsame).symm

/-! ## Chunks are read when they are due -/

theorem polls_rest {p : Profile} {rt : Rt} {io : Io} {ds : Dataset} {csz : Nat} {factor : Outcome Nat}
    {conv : List Byte → Outcome (List Byte)} (disks : List (Option (List Byte))) (g : Gen) (i : Nat)
    {a : Option (Outcome (List Byte)) × List (Nat × Nat)}
    (ha : (Gen.polls p rt io ds csz factor conv disks g)[i]? = some a) :
    ∀ r ∈ a.2, ∃ b, g.rest[i]? = some b ∧ r = (b.addr, b.size) := by
  induction disks generalizing g i with
  | nil => simp [Gen.polls] at ha
  | cons f fs ih =>
    have hreads := poll_reads (p := p) (rt := rt) (io := io) (ds := ds) (csz := csz)
      (factor := factor) (conv := conv) f g
    simp only at hreads
    obtain ⟨⟨-, h2⟩, h3⟩ := hreads
    intro r hr
    cases i with
    | zero =>
      simp only [Gen.polls, List.getElem?_cons_zero, Option.some.injEq] at ha
      subst ha
      obtain ⟨b, hb, e⟩ := h2 r hr
      exact ⟨b, by rw [← List.head?_eq_getElem?]; exact hb, e⟩
    | succ i =>
      simp only [Gen.polls, List.getElem?_cons_succ] at ha
      obtain ⟨b, hb, e⟩ := ih _ i ha r hr
      refine ⟨b, ?_, e⟩
      rcases h3 with h | h
      · rw [h] at hb; simp at hb
      · rw [h, List.getElem?_tail] at hb; exact hb

theorem mapM_bslice_get {p : Profile} {dsz : Nat} {items : List Item} {l : List BSlice}
    (h : items.mapM (bslice p dsz) = ok l) (i : Nat) {b : BSlice} (hb : l[i]? = some b) :
    ∃ it, items[i]? = some it ∧ b.addr = it.chunk.addr ∧ b.size = it.chunk.size := by
  induction items generalizing l i with
  | nil =>
    simp only [List.mapM_nil] at h
    obtain rfl := Outcome.ok.inj h
    simp at hb
  | cons it its ih =>
    rw [List.mapM_cons] at h
    obtain ⟨b', h1, h⟩ := bind_eq_ok.1 h
    obtain ⟨r, h2, h⟩ := bind_eq_ok.1 h
    obtain rfl := Outcome.ok.inj h
    cases i with
    | zero =>
      simp only [List.getElem?_cons_zero, Option.some.injEq] at hb
      subst hb
      unfold bslice at h1
      obtain ⟨_, -, h1⟩ := bind_eq_ok.1 h1
      obtain ⟨_, -, h1⟩ := bind_eq_ok.1 h1
      obtain rfl := Outcome.ok.inj h1
      exact ⟨it, rfl, rfl, rfl⟩
    | succ i =>
      obtain ⟨it', h3, h4⟩ := ih h2 i (by simpa using hb)
      exact ⟨it', by simpa using h3, h4⟩

theorem streamNew_slice {p : Profile} {ds : Dataset} {ext : Extents} {csz : Nat} {g : Gen}
    (h : streamNew p ds ext = ok (csz, g)) (i : Nat) {b : BSlice} (hb : g.rest[i]? = some b) :
    ∃ t it, ds.chunkSlices p ext = ok t ∧ t.items[i]? = some it ∧
      (b.addr, b.size) = (it.chunk.addr, it.chunk.size) := by
  unfold streamNew at h
  obtain ⟨csz, h1, h⟩ := bind_eq_ok.1 h
  obtain ⟨slices, hsl, h⟩ := bind_eq_ok.1 h
  obtain ⟨cap, h3, h⟩ := bind_eq_ok.1 h
  obtain ⟨-, rfl⟩ := Prod.mk.inj (Outcome.ok.inj h)
  unfold streamSlices at hsl
  obtain ⟨t, h1, hsl⟩ := bind_eq_ok.1 hsl
  obtain ⟨l'', h2, hsl⟩ := bind_eq_ok.1 hsl
  obtain ⟨_, -, hsl⟩ := bind_eq_ok.1 hsl
  obtain rfl := Outcome.ok.inj hsl
  obtain ⟨it, h4, h5, h6⟩ := mapM_bslice_get h2 i hb
  exact ⟨t, it, h1, h4, by rw [h5, h6]⟩

/-- C69, no reading ahead: the `i`-th poll reads no chunk but that of the `i`-th slice of
`Dataset::chunk_slices`. For every dataset (also malformed ones) and selection, whatever the file holds at
each poll and whatever fails. -/
theorem C69_slice {p : Profile} {rt : Rt} {io : Io} {ds : Dataset} {ext : Extents}
    {disks : List (Option (List Byte))} {l : List (Option (Outcome (List Byte)) × List (Nat × Nat))}
    (h : streamPolls p rt io ds ext disks = ok l) (i : Nat)
    {a : Option (Outcome (List Byte)) × List (Nat × Nat)} (ha : l[i]? = some a) :
    ∀ r ∈ a.2, ∃ t it, ds.chunkSlices p ext = ok t ∧ t.items[i]? = some it ∧
      r = (it.chunk.addr, it.chunk.size) := by
  unfold streamPolls at h
  obtain ⟨⟨csz, g⟩, h1, h⟩ := bind_eq_ok.1 h
  obtain rfl := Outcome.ok.inj h
  intro r hr
  obtain ⟨b, hb, rfl⟩ := polls_rest disks g i ha r hr
  exact streamNew_slice h1 i hb

theorem C69_slice_xdr {p : Profile} {rt : Rt} {h : Host} {io : Io} {ds : Dataset} {ext : Extents}
    {disks : List (Option (List Byte))} {l : List (Option (Outcome (List Byte)) × List (Nat × Nat))}
    (hx : streamXdrPolls p rt h io ds ext disks = ok l) (i : Nat)
    {a : Option (Outcome (List Byte)) × List (Nat × Nat)} (ha : l[i]? = some a) :
    ∀ r ∈ a.2, ∃ t it, ds.chunkSlices p ext = ok t ∧ t.items[i]? = some it ∧
      r = (it.chunk.addr, it.chunk.size) := by
  unfold streamXdrPolls at hx
  obtain ⟨⟨csz, g⟩, h1, hx⟩ := bind_eq_ok.1 hx
  obtain rfl := Outcome.ok.inj hx
  intro r hr
  obtain ⟨b, hb, rfl⟩ := polls_rest disks g i ha r hr
  exact streamNew_slice h1 i hb

theorem streamItem_length {p : Profile} {rt : Rt} {io : Io} {ds : Dataset} {csz : Nat} {f : List Byte}
    {lru lru' : Lru} {b : BSlice} {src : List Byte} (hle : b.start ≤ b.stop) (hlt : b.stop < W)
    (h : streamItem p rt io f ds csz (ok 1) ok lru b = ok (src, lru')) :
    src.length = b.stop - b.start := by
  have key : ∀ {cache : List Byte}, sliceOf cache b.start b.stop = ok src →
      src.length = b.stop - b.start := by
    intro cache hs
    unfold sliceOf at hs
    split at hs
    · obtain rfl := Outcome.ok.inj hs
      simp only [List.length_take, List.length_drop]
      omega
    · simp at hs
  unfold streamItem at h
  have m1 : mul64 p b.start 1 = ok b.start := by rw [mul64_of_lt (by omega), Nat.mul_one]
  have m2 : mul64 p b.stop 1 = ok b.stop := by rw [mul64_of_lt (by omega), Nat.mul_one]
  rw [ok_bind, m1, ok_bind, m2, ok_bind] at h
  obtain ⟨_, -, h⟩ := bind_eq_ok.1 h
  split at h
  · obtain ⟨_, -, h⟩ := bind_eq_ok.1 h
    obtain ⟨_, -, h⟩ := bind_eq_ok.1 h
    obtain ⟨s, hs, h⟩ := bind_eq_ok.1 h
    obtain ⟨rfl, -⟩ := Prod.mk.inj (Outcome.ok.inj h)
    exact key hs
  · obtain ⟨_, -, h⟩ := bind_eq_ok.1 h
    obtain ⟨_, -, h⟩ := bind_eq_ok.1 h
    obtain ⟨_, -, h⟩ := bind_eq_ok.1 h
    obtain ⟨_, -, h⟩ := bind_eq_ok.1 h
    obtain ⟨s, hs, h⟩ := bind_eq_ok.1 h
    obtain ⟨rfl, -⟩ := Prod.mk.inj (Outcome.ok.inj h)
    exact key hs

theorem resume_due {p : Profile} {rt : Rt} {io : Io} {ds : Dataset} {csz : Nat} {f : List Byte}
    {lru : Lru} {b : BSlice} {bs : List BSlice} (hle : b.start ≤ b.stop) (hlt : b.stop < W) :
    let r := Gen.resume p rt io ds csz (ok 1) ok f lru (b :: bs)
    (∃ src lru', r.1 = some (ok src) ∧ src.length = b.stop - b.start ∧ r.2.1 = .running lru' bs) ∨
    r.2.1.rest = [] := by
  unfold Gen.resume
  simp only
  cases hi : streamItem p rt io f ds csz (ok 1) ok lru b with
  | ok x => exact .inl ⟨x.1, x.2, rfl, streamItem_length hle hlt hi, rfl⟩
  | _ => exact .inr rfl

theorem forall₂_drop_expand {ds : Dataset} {X : List (List Nat)} {it : Item} {its : List Item}
    (h : List.Forall₂ (fun x (ck : Chunk × Nat) => StoredAt ds x ck.1 ck.2) X (expand (it :: its))) :
    List.Forall₂ (fun x (ck : Chunk × Nat) => StoredAt ds x ck.1 ck.2)
      (X.drop (it.stop - it.start)) (expand its) := by
  have := List.forall₂_drop (it.stop - it.start) h
  have e : expand (it :: its) = (List.range' it.start (it.stop - it.start)).map (fun k => (it.chunk, k)) ++
      expand its := by simp [expand]
  rw [e, List.drop_left' (by simp)] at this
  exact this

theorem polls_due {p : Profile} {rt : Rt} {io : Io} {ds : Dataset} {csz : Nat}
    (disks : List (Option (List Byte))) (items : List Item) (g : Gen)
    (hg : g.rest = [] ∨ g.rest = items.map (bOf ds.dsize))
    (hle : ∀ it ∈ items, it.start < it.stop) (hlt : ∀ it ∈ items, it.stop * ds.dsize < W)
    (X : List (List Nat))
    (hX : List.Forall₂ (fun x (ck : Chunk × Nat) => StoredAt ds x ck.1 ck.2) X (expand items)) :
    ∀ (i : Nat) a, (Gen.polls p rt io ds csz (ok 1) ok disks g)[i]? = some a → ∀ r ∈ a.2,
      ∃ m x c, delivered ((Gen.polls p rt io ds csz (ok 1) ok disks g).take i) = m * ds.dsize ∧
        X[m]? = some x ∧ c ∈ ds.chunks ∧ InBox c.offset ds.chunkShape x ∧ r = (c.addr, c.size) := by
  induction disks generalizing items g X with
  | nil => intro i a h; simp [Gen.polls] at h
  | cons f fs ih =>
    intro i a ha r hr
    have hreads := poll_reads (p := p) (rt := rt) (io := io) (ds := ds) (csz := csz)
      (factor := ok 1) (conv := ok) f g
    simp only at hreads
    obtain ⟨⟨-, h2⟩, h3⟩ := hreads
    by_cases hnil : g.rest = []
    · -- nothing left: no reads
      exfalso
      obtain ⟨-, q⟩ := polls_reads (p := p) (rt := rt) (io := io) (ds := ds) (csz := csz)
        (factor := ok 1) (conv := ok) (f :: fs) g a (List.mem_of_getElem? ha)
      obtain ⟨b, hb, -⟩ := q r hr
      rw [hnil] at hb; simp at hb
    · have hg' := hg.resolve_left hnil
      cases items with
      | nil => exact absurd (by rw [hg']; rfl) hnil
      | cons it its =>
        have hle' := hle it (by simp)
        have hlt' := hlt it (by simp)
        have hx0 : ∃ x, X[0]? = some x ∧ StoredAt ds x it.chunk it.start := by
          have e : expand (it :: its) = (it.chunk, it.start) ::
              ((List.range' (it.start + 1) (it.stop - it.start - 1)).map (fun k => (it.chunk, k)) ++
                expand its) := by
            have : it.stop - it.start = (it.stop - it.start - 1) + 1 := by omega
            simp only [expand, List.flatMap_cons]
            rw [this, List.range'_succ]
            simp
          rw [e] at hX
          cases hX with
          | cons hr hs => exact ⟨_, rfl, hr⟩
        cases i with
        | zero =>
          simp only [Gen.polls, List.getElem?_cons_zero, Option.some.injEq] at ha
          subst ha
          obtain ⟨b, hb, e⟩ := h2 r hr
          rw [hg'] at hb
          simp only [List.map_cons, List.head?_cons, Option.mem_def, Option.some.injEq] at hb
          subst hb
          obtain ⟨x, hx, hs1, hs2, -⟩ := hx0
          exact ⟨0, x, it.chunk, by simp [delivered], hx, hs1, hs2, e⟩
        | succ i =>
          simp only [Gen.polls, List.getElem?_cons_succ] at ha
          -- the first poll delivered an item, or nothing is left
          have hcase : (∃ src, (g.poll p rt io ds csz (ok 1) ok f).1 = some (ok src) ∧
              src.length = (it.stop - it.start) * ds.dsize ∧
              (g.poll p rt io ds csz (ok 1) ok f).2.1.rest = its.map (bOf ds.dsize)) ∨
              (g.poll p rt io ds csz (ok 1) ok f).2.1.rest = [] := by
            have hres : ∀ (c : List Byte) (lru : Lru),
                let q := Gen.resume p rt io ds csz (ok 1) ok c lru ((it :: its).map (bOf ds.dsize))
                (∃ src, q.1 = some (ok src) ∧ src.length = (it.stop - it.start) * ds.dsize ∧
                  q.2.1.rest = its.map (bOf ds.dsize)) ∨ q.2.1.rest = [] := by
              intro c lru
              rcases resume_due (p := p) (rt := rt) (io := io) (ds := ds) (csz := csz) (f := c) (lru := lru)
                (b := bOf ds.dsize it) (bs := its.map (bOf ds.dsize))
                (Nat.mul_le_mul_right _ (Nat.le_of_lt hle')) hlt' with ⟨src, lru', e1, e2, e3⟩ | e
              · refine .inl ⟨src, e1, ?_, ?_⟩
                · rw [e2, Nat.sub_mul]; rfl
                · rw [List.map_cons, e3]; rfl
              · exact .inr e
            cases g with
            | fresh cap slices =>
              have hsl : slices = (it :: its).map (bOf ds.dsize) := hg'
              cases f with
              | none => exact .inr rfl
              | some c => rw [hsl]; exact hres c _
            | running lru slices =>
              have hsl : slices = (it :: its).map (bOf ds.dsize) := hg'
              cases f with
              | some c => rw [hsl]; exact hres c _
              | none =>
                rw [hsl]
                simp only [Gen.poll, List.map_cons]
                cases streamFetch ⟨lru, []⟩ (bOf ds.dsize it) with
                | none => exact hres [] _
                | some _ => exact .inr rfl
            | ended => exact absurd rfl hnil
            | broken o => exact absurd rfl hnil
          rcases hcase with ⟨src, e1, e2, e3⟩ | e
          · obtain ⟨m, x, c, d1, d2, d3, d4, d5⟩ := ih its _ (.inr e3)
              (fun t ht => hle t (by simp [ht])) (fun t ht => hlt t (by simp [ht]))
              (X.drop (it.stop - it.start)) (forall₂_drop_expand hX) i a ha r hr
            refine ⟨it.stop - it.start + m, x, c, ?_, ?_, d3, d4, d5⟩
            · simp only [Gen.polls, List.take_succ_cons]
              unfold delivered at d1 ⊢
              rw [List.map_cons, List.sum_cons, d1, e1, Nat.add_mul, ← e2]
            · rw [← List.getElem?_drop]; exact d2
          · exfalso
            obtain ⟨-, q⟩ := polls_reads (p := p) (rt := rt) (io := io) (ds := ds) (csz := csz)
              (factor := ok 1) (conv := ok) fs _ a (List.mem_of_getElem? ha)
            obtain ⟨b, hb, -⟩ := q r hr
            rw [e] at hb; simp at hb

/-- C69, no reading ahead, for the selections that are sliced right (`Spec.Good`): a poll reads a chunk only if the next element to be delivered - the `m`-th of
the selection in row-major order, when `m` elements have been delivered before - lies in that chunk.
Whatever the file holds at each poll and whatever fails. -/
theorem C69_due {p : Profile} {rt : Rt} {io : Io} {ds : Dataset} {ext : Extents}
    {start count : List Nat} (hwf : WF p ds) (hsel : Selects ext ds.shape start count)
    (hb : InBounds start count ds.shape) (hg : Good p ds start count)
    (hW : count.prod * ds.dsize < W) (hC : ds.chunkShape.prod * ds.dsize < W)
    {disks : List (Option (List Byte))} {l : List (Option (Outcome (List Byte)) × List (Nat × Nat))}
    (h : streamPolls p rt io ds ext disks = ok l) (i : Nat)
    {a : Option (Outcome (List Byte)) × List (Nat × Nat)} (ha : l[i]? = some a) :
    ∀ r ∈ a.2, ∃ m x c, delivered (l.take i) = m * ds.dsize ∧ (rowMajor start count)[m]? = some x ∧
      c ∈ ds.chunks ∧ InBox c.offset ds.chunkShape x ∧ r = (c.addr, c.size) := by
  obtain ⟨items, hS, he⟩ := sliced_of_good hwf hsel hb hg hW hC
  unfold streamPolls streamNew at h
  obtain ⟨⟨csz, g⟩, h1, h⟩ := bind_eq_ok.1 h
  obtain rfl := Outcome.ok.inj h
  obtain ⟨csz', h2, h1⟩ := bind_eq_ok.1 h1
  obtain ⟨slices, h3, h1⟩ := bind_eq_ok.1 h1
  obtain ⟨cap, h4, h1⟩ := bind_eq_ok.1 h1
  obtain ⟨rfl, rfl⟩ := Prod.mk.inj (Outcome.ok.inj h1)
  rw [streamSlices_ok hS] at h3
  obtain rfl := Outcome.ok.inj h3
  exact polls_due disks items _ (.inr rfl) hS.le hS.lt _ he i a ha

/-! ## An instance: the first two polls work on a file whose second half is missing -/

example (p : Profile) (disks : List (Option (List Byte)))
    (l : List (Option (Outcome (List Byte)) × List (Nat × Nat)))
    (h : streamPolls p .none Demo.io Demo.ds topRows disks = ok l) :
    l.length = disks.length ∧ ∀ a ∈ l, a.2.length ≤ 1 ∧ ∀ r ∈ a.2, NeededRange Demo.ds topRows r :=
  C69_reads (Demo.wf p) topRows_fit disks h

/-- All of the demo dataset, with only the first two chunks in the file: four items of four bytes come
from two reads, the fifth poll fails, then there is nothing more. -/
example : (streamPolls .debug .none Demo.io Demo.ds .all (List.replicate 7 (some (Demo.file.take 20))) >>=
      fun l => ok (l.map fun a => (a.1.map fun o => match o with | ok b => some b.length | _ => none, a.2))) =
    ok [(some (some 4), [(9, 9)]), (some (some 4), [(0, 9)]), (some (some 4), []), (some (some 4), []),
      (some none, [(20, 9)]), (none, []), (none, [])] := by
  decide +kernel

end Hidefix.Props
