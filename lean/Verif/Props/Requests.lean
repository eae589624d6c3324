import Verif.Props.Fetches
import Verif.Props.Remote

/-!
# C84: what an S3 read asks for

The requests of one read do not overlap, transfer at most 32 KiB between two neighbouring needed
chunks, and there are as few of them as the limits of the crate (32 KiB, 8 MiB) allow.
-/

set_option autoImplicit false

namespace Hidefix.Props
open Hidefix Hidefix.Spec Hidefix.Proofs Outcome

/-- The stored chunks do not overlap in the file and end below `2^64`. -/
structure Apart (ds : Dataset) : Prop where
  apart : ∀ a ∈ ds.chunks, ∀ b ∈ ds.chunks, a.addr < b.addr → a.addr + a.size ≤ b.addr
  fit : ∀ c ∈ ds.chunks, c.addr + c.size < W

/-- Chunks that one request may fetch: at most 32 KiB between neighbours, and at most 8 MiB from the
beginning of the first to the end of the last unless there is only one. -/
structure MayShare (l : List Chunk) : Prop where
  close : l.IsChain fun a b => b.addr - (a.addr + a.size) ≤ 32768
  small : l.length ≤ 1 ∨ ∀ a b, l.head? = some a → l.getLast? = some b →
    b.addr + b.size - a.addr ≤ 8388608

/-- Consecutive runs of a grouping that cannot be merged even by one chunk. -/
def Apart2 (a b : List Chunk) : Prop :=
  ∀ x y z, a.head? = some x → a.getLast? = some y → b.head? = some z →
    32768 < z.addr - (y.addr + y.size) ∨ 8388608 < z.addr + z.size - x.addr

theorem pairwise_end_le {l : List Chunk} (h : l.Pairwise fun a b => a.addr + a.size ≤ b.addr)
    {c z : Chunk} (hc : c ∈ l) (hz : l.getLast? = some z) : c.addr + c.size ≤ z.addr + z.size := by
  obtain ⟨init, rfl⟩ : ∃ init, l = init ++ [z] := by
    obtain ⟨ys, e⟩ := List.getLast?_eq_some_iff.1 hz; exact ⟨ys, e⟩
  rcases List.mem_append.1 hc with hc | hc
  · have := (List.pairwise_append.1 h).2.2 c hc z (by simp); omega
  · simp at hc; subst hc; exact Nat.le_refl _

theorem pairwise_head_le {l : List Chunk} (h : l.Pairwise fun a b => a.addr + a.size ≤ b.addr)
    {c x : Chunk} (hc : c ∈ l) (hx : l.head? = some x) : x.addr ≤ c.addr := by
  cases l with
  | nil => simp at hx
  | cons a l =>
    simp at hx; subst hx
    rcases List.mem_cons.1 hc with rfl | hc
    · exact Nat.le_refl _
    · have := (List.pairwise_cons.1 h).1 c hc; omega

/-- Greedy grouping is optimal: any other grouping of a list that contains the greedy one's list at
its end has at least as many runs. -/
theorem greedy_fewest (os : List (List Chunk)) : ∀ (gs : List (List Chunk)) (x : List Chunk),
    os.flatten = x ++ gs.flatten → os.flatten.Pairwise (fun a b => a.addr + a.size ≤ b.addr) →
    (∀ g ∈ gs, g ≠ []) → gs.IsChain Apart2 → (∀ o ∈ os, MayShare o) → gs.length ≤ os.length := by
  induction os with
  | nil =>
    intro gs x h _ hne _ _
    have h' : gs.flatten = [] := by
      have := congrArg List.length h
      simp only [List.flatten_nil, List.length_nil, List.length_append] at this
      exact List.length_eq_zero_iff.1 (by omega)
    cases gs with
    | nil => simp
    | cons g gs => exact absurd (List.append_eq_nil_iff.1 h').1 (hne g (by simp))
  | cons o os ih =>
    intro gs x h hp hne hch hok
    cases gs with
    | nil => simp
    | cons g gs =>
      rw [List.flatten_cons] at h hp
      have hpo := (List.pairwise_append.1 hp).2.1
      have hok' : ∀ o ∈ os, MayShare o := fun o ho => hok o (by simp [ho])
      rcases List.append_eq_append_iff.1 h with ⟨q, hx, hq⟩ | ⟨q, ho, hq⟩
      · -- the run ends before the greedy one begins
        have := ih (g :: gs) q hq hpo hne hch hok'
        simp only [List.length_cons] at this ⊢
        omega
      · rw [List.flatten_cons] at hq
        rcases List.append_eq_append_iff.1 hq with ⟨r, hr, hr2⟩ | ⟨r, hr, hr2⟩
        · -- the run contains the whole greedy run
          cases r with
          | nil =>
            have := ih gs [] (by simpa using hr2.symm) hpo (fun g hg => hne g (by simp [hg]))
              hch.tail hok'
            simp only [List.length_cons]
            omega
          | cons z r =>
            exfalso
            cases gs with
            | nil => simp at hr2
            | cons g2 gs =>
              have hg2 := hne g2 (by simp)
              obtain ⟨z', g2', rfl⟩ := List.exists_cons_of_ne_nil hg2
              have hz : z' = z := by simpa using congrArg List.head? hr2
              subst hz
              obtain ⟨a, g', rfl⟩ := List.exists_cons_of_ne_nil (hne g (by simp))
              have hy : ∃ y, (a :: g').getLast? = some y := ⟨_, List.getLast?_eq_some_getLast (by simp)⟩
              obtain ⟨y, hy⟩ := hy
              have hap := (List.isChain_cons_cons.1 hch).1 a y z' rfl hy rfl
              have hm := hok o (by simp)
              have hpo1 := (List.pairwise_append.1 hp).1
              obtain ⟨init, hin⟩ := List.getLast?_eq_some_iff.1 hy
              have hosh : o = (x ++ init) ++ y :: z' :: r := by
                rw [ho, hr, hin]; simp
              rcases hap with hap | hap
              · have := hm.close
                rw [hosh] at this
                have := (List.isChain_cons_cons.1 (List.isChain_append.1 this).2.1).1
                omega
              · rcases hm.small with hs | hs
                · rw [ho, hr] at hs; simp at hs; omega
                · have hzmem : z' ∈ o := by rw [hosh]; simp
                  have hamem : a ∈ o := by rw [ho, hr]; simp
                  obtain ⟨f, hf⟩ : ∃ f, o.head? = some f := by
                    cases o with
                    | nil => simp at hzmem
                    | cons f _ => exact ⟨f, rfl⟩
                  obtain ⟨l, hl⟩ : ∃ l, o.getLast? = some l :=
                    ⟨_, List.getLast?_eq_some_getLast (List.ne_nil_of_mem hzmem)⟩
                  have h1 := pairwise_end_le hpo1 hzmem hl
                  have h2 := pairwise_head_le hpo1 hamem hf
                  have h3 := hs f l hf hl
                  omega
        · -- the run ends inside the greedy run
          have := ih gs r hr2 hpo (fun g hg => hne g (by simp [hg])) hch.tail hok'
          simp only [List.length_cons]
          omega

theorem request_bytes {r : Request} (h : RequestOk r) :
    r.stop - r.start + 32768 ≤ ((r.chunks.map Prod.fst).map Chunk.size).sum + 32768 * r.chunks.length ∧
    r.start ≤ r.stop := by
  have key : ∀ (l : List (Chunk × List Seg)) (a d : Chunk × List Seg),
      (a :: l).IsChain (fun a b => a.1.addr + a.1.size ≤ b.1.addr ∧
        b.1.addr - (a.1.addr + a.1.size) ≤ 32768) → (a :: l).getLast? = some d →
      d.1.addr + d.1.size ≤ a.1.addr + (((a :: l).map Prod.fst).map Chunk.size).sum
        + 32768 * l.length ∧ a.1.addr ≤ d.1.addr := by
    intro l
    induction l with
    | nil => intro a d _ hd; simp at hd; subst hd; simp
    | cons b l ih =>
      intro a d hc hd
      rw [List.isChain_cons_cons] at hc
      obtain ⟨h1, h2⟩ := ih b d hc.2 (by simpa [List.getLast?_cons_cons] using hd)
      simp only [List.map_cons, List.sum_cons, List.length_cons] at h1 ⊢
      omega
  obtain ⟨c, rest, hc, hs⟩ := h.first
  obtain ⟨init, d, hd, he⟩ := h.last
  have hl : (c :: rest).getLast? = some d := by rw [← hc, hd]; simp
  have hch := h.close
  rw [hc] at hch
  obtain ⟨h1, h2⟩ := key rest c d hch hl
  rw [hs, he, hc]
  simp only [List.length_cons]
  omega

theorem requests_bytes {reqs : List Request} (h : ∀ r ∈ reqs, RequestOk r) :
    (reqs.map fun r => r.stop - r.start).sum + 32768 * reqs.length ≤
      ((s3Chunks reqs).map Chunk.size).sum + 32768 * (s3Chunks reqs).length := by
  induction reqs with
  | nil => simp [s3Chunks]
  | cons r reqs ih =>
    have h1 := request_bytes (h r (by simp))
    have h2 := ih fun r hr => h r (by simp [hr])
    simp only [s3Chunks, List.flatMap_cons, List.map_cons, List.sum_cons, List.map_append,
      List.sum_append, List.length_append, List.length_cons, List.length_map] at h1 h2 ⊢
    omega

theorem isChain_and {α : Type} {R S : α → α → Prop} {l : List α} (h : l.IsChain R)
    (k : l.IsChain S) : l.IsChain fun a b => R a b ∧ S a b := by
  induction l with
  | nil => exact .nil
  | cons a l ih =>
    cases l with
    | nil => exact .singleton a
    | cons b l =>
      rw [List.isChain_cons_cons] at h k ⊢
      exact ⟨⟨h.1, k.1⟩, ih h.2 k.2⟩

theorem s3Prelude_inv {p : Profile} {ds : Dataset} {sort : List GItem → List GItem} {ext : Extents}
    {n csz vsz : Nat} {reqs : List Request}
    (h : s3Prelude p ds sort ext n = ok (csz, vsz, reqs)) :
    ∃ l, ds.groupChunkSlices p ext sort = ok l ∧ groupRequests p l = ok reqs := by
  unfold s3Prelude at h
  obtain ⟨_, -, h⟩ := bind_eq_ok.1 h
  obtain ⟨_, -, h⟩ := bind_eq_ok.1 h
  obtain ⟨_, -, h⟩ := bind_eq_ok.1 h
  obtain ⟨l, h1, h⟩ := bind_eq_ok.1 h
  obtain ⟨r, h2, h⟩ := bind_eq_ok.1 h
  obtain ⟨-, h⟩ := Prod.mk.inj (Outcome.ok.inj h)
  obtain ⟨-, rfl⟩ := Prod.mk.inj h
  exact ⟨l, h1, h2⟩

/-- C84: the requests of an S3 read are for increasing ranges that do not overlap; only chunks that
hold a selected element are in them; the bytes asked for are at most the stored bytes of these chunks
and 32 KiB for each pair of neighbours in one request; and no other way of cutting the chunks, in
the order of the file, into requests within the limits has fewer requests. -/
theorem C84 {p : Profile} {ds : Dataset} {sort : List GItem → List GItem} {ext : Extents}
    {n csz vsz : Nat} {reqs : List Request} (hwf : WF p ds) (hfit : EndsFit ds ext)
    (hap : Apart ds) (hsort : ∀ l, SortedByAddr l (sort l))
    (h : s3Prelude p ds sort ext n = ok (csz, vsz, reqs)) :
    (reqs.Pairwise fun a b => a.stop ≤ b.start) ∧
    (∀ c ∈ s3Chunks reqs, NeededRange ds ext (c.addr, c.size)) ∧
    (reqs.map fun r => r.stop - r.start).sum + 32768 * reqs.length ≤
      ((s3Chunks reqs).map Chunk.size).sum + 32768 * (s3Chunks reqs).length ∧
    ∀ runs : List (List Chunk), runs.flatten = s3Chunks reqs → (∀ l ∈ runs, MayShare l) →
      reqs.length ≤ runs.length := by
  have hlt := C64_s3 hsort h
  obtain ⟨l, h1, h2⟩ := s3Prelude_inv h
  obtain ⟨-, hneed⟩ := groups_need hwf hfit hsort h1
  have hWl : ∀ g ∈ l, g.chunk.addr + g.chunk.size < W := by
    intro g hg
    obtain ⟨_, _, c, -, hc, e⟩ := hneed g hg
    obtain ⟨e1, e2⟩ := Prod.mk.inj e
    have := hap.fit c hc.1
    omega
  obtain ⟨reqs', k1, -, k3, k4, k5⟩ := C18 (p := p) hWl
  obtain rfl : reqs' = reqs := Outcome.ok.inj (k1.symm.trans h2)
  have hnd : ∀ c ∈ s3Chunks reqs', NeededRange ds ext (c.addr, c.size) := by
    intro c hc
    simp only [s3Chunks, List.mem_flatMap, List.mem_map] at hc
    obtain ⟨r, hr, cs, hcs, rfl⟩ := hc
    obtain ⟨⟨g, hg, e⟩, -⟩ := k3 r hr cs hcs
    rw [← e]; exact hneed g hg
  have hpw : (s3Chunks reqs').Pairwise fun a b => a.addr + a.size ≤ b.addr := by
    refine hlt.imp_of_mem fun {a b} ha hb hab => ?_
    obtain ⟨_, _, c, -, hc, e⟩ := hnd a ha
    obtain ⟨_, _, d, -, hd, e'⟩ := hnd b hb
    obtain ⟨e1, e2⟩ := Prod.mk.inj e
    obtain ⟨e3, e4⟩ := Prod.mk.inj e'
    have := hap.apart c hc.1 d hd.1 (by omega)
    omega
  have hdis : reqs'.Pairwise fun a b => a.stop ≤ b.start := by
    unfold s3Chunks at hpw
    rw [List.flatMap_def, List.pairwise_flatten, List.pairwise_map] at hpw
    refine hpw.2.imp_of_mem fun {a b} ha hb hab => ?_
    obtain ⟨init, d, hd, he⟩ := (k4 a ha).last
    obtain ⟨c, rest, hc, hs⟩ := (k4 b hb).first
    rw [he, hs]
    exact hab d.1 (by rw [hd]; simp) c.1 (by rw [hc]; simp)
  refine ⟨hdis, hnd, requests_bytes k4, ?_⟩
  · intro runs hruns hok
    have e : (reqs'.map fun r => r.chunks.map Prod.fst).flatten = s3Chunks reqs' := rfl
    have := greedy_fewest runs (reqs'.map fun r => r.chunks.map Prod.fst) []
      (by rw [hruns, List.nil_append, e]) (by rw [hruns]; exact hpw) ?_ ?_ hok
    · simpa using this
    · intro g hg
      obtain ⟨r, hr, rfl⟩ := List.mem_map.1 hg
      obtain ⟨c, rest, hc, -⟩ := (k4 r hr).first
      rw [hc]; simp
    · rw [List.isChain_map]
      refine List.IsChain.imp_of_mem_imp (fun a b ha hb hab => ?_) (isChain_and k5 hdis.isChain)
      obtain ⟨hab, hle⟩ := hab
      intro x y z hx hy hz
      obtain ⟨c, rest, hc, hs⟩ := (k4 a ha).first
      obtain ⟨init, d, hd, he⟩ := (k4 a ha).last
      obtain ⟨c', rest', hc', hs'⟩ := (k4 b hb).first
      rw [hc] at hx; simp at hx; subst hx
      rw [hd] at hy; simp at hy; subst hy
      rw [hc'] at hz; simp at hz; subst hz
      rcases hab with hab | hab | ⟨c'', _, e, hab⟩
      · omega
      · left; omega
      · rw [hc'] at e; obtain ⟨rfl, -⟩ := List.cons.inj e
        right; omega

/-- C84, for Good selections: the read gets as far as sending requests, and the range of every needed
chunk is in one. Missing: other selections (C04). -/
theorem C84_all_partial {p : Profile} {io : Io} {file : List Byte} {ds : Dataset}
    {A : List Nat → List Byte} {ext : Extents} {start count : List Nat}
    {sort : List GItem → List GItem} {n : Nat}
    (h : Setup p io file ds A ext start count) (hg : Good p ds start count) (hap : Apart ds)
    (hsort : ∀ l, SortedByAddr l (sort l)) (hn : count.prod * ds.dsize ≤ n) :
    ∃ csz vsz reqs, s3Prelude p ds sort ext n = ok (csz, vsz, reqs) ∧
      ∀ c, Needs ds start count c → ∃ d ∈ s3Chunks reqs, d.addr = c.addr ∧ d.size = c.size := by
  obtain ⟨items, hS, h2, h3, h4, -⟩ := setup_core h hg
  have hp := (hsort (tile 0 items)).1
  have hmem : ∀ g ∈ sort (tile 0 items), g.chunk ∈ ds.chunks :=
    fun g hg => hS.mem _ (tile_mem (hp.mem_iff.2 hg))
  obtain ⟨reqs, hreqs, hinv⟩ := groupRequests_ok (p := p) (gs := sort (tile 0 items))
    (fun g hg => hap.fit _ (hmem g hg))
  refine ⟨ds.chunkShape.prod * ds.dsize, count.prod * ds.dsize, reqs, ?_, ?_⟩
  · unfold s3Prelude
    rw [h3, ok_bind, hS.req, ok_bind,
      show decide (count.prod * ds.dsize ≤ n) = true by simpa using hn,
      ensure_true, ok_bind, hS.groups, ok_bind, hreqs, ok_bind]
  · intro c hc
    obtain ⟨it, hit, rfl⟩ := (needs_iff h.wf h.inb h2 hS.le c).1 hc
    obtain ⟨g, hgm, hgc, -⟩ := mem_tile 0 hit
    have hk : sliceKey g ∈ (sort (tile 0 items)).map sliceKey :=
      List.mem_map.2 ⟨g, hp.mem_iff.1 hgm, rfl⟩
    rw [← hinv.keys] at hk
    obtain ⟨g', hg', e⟩ := List.mem_map.1 hk
    simp only [Request.slices, List.mem_flatMap, List.mem_map] at hg'
    obtain ⟨r, hr, cs, hcs, s, -, rfl⟩ := hg'
    have e1 : cs.1.addr = it.chunk.addr := by
      have := (Prod.mk.inj e).1
      rw [hgc] at this; exact this
    obtain ⟨g'', hg'', e2⟩ := hinv.mem r hr cs hcs
    refine ⟨cs.1, ?_, e1, ?_⟩
    · simp only [s3Chunks, List.mem_flatMap, List.mem_map]
      exact ⟨r, hr, cs, hcs, rfl⟩
    · exact h.addr _ (by rw [← e2]; exact hmem g'' hg'') _ (hS.mem it hit) e1

/-- The dataset of `Demo`: chunks at 9, 0, 20 and 29, each of 9 bytes; 2 bytes between the second and
the third in the file. -/
theorem demo_apart : Apart Demo.ds := ⟨by decide +kernel, by decide +kernel⟩

example (p : Profile) : ∃ csz vsz reqs,
    s3Prelude p Demo.ds sortByAddr Demo.ext 12 = ok (csz, vsz, reqs) ∧
    ∀ c, Needs Demo.ds [1, 1] [2, 3] c → ∃ d ∈ s3Chunks reqs, d.addr = c.addr ∧ d.size = c.size :=
  C84_all_partial (Demo.setup p) Demo.good demo_apart sortByAddr_ok (by decide)

/-- Five chunks of 3 MiB each, one behind the other: two of them fit into a request, three do not. -/
example (p : Profile) : (groupRequests p ((List.range 5).map fun k =>
    ⟨⟨3145728 * k, 3145728, [k]⟩, k, 0, 1⟩) >>= fun l => ok (l.map fun r => (r.start, r.stop))) =
    ok [(0, 6291456), (6291456, 12582912), (12582912, 15728640)] := by
  cases p <;> decide +kernel

/-- Another grouping of these chunks within the limits, with as many requests; any grouping needs at
least three. -/
example : ∀ l ∈ ([[0], [1, 2], [3, 4]] : List (List Nat)),
    MayShare (l.map fun k => ⟨3145728 * k, 3145728, [k]⟩) := by
  intro l hl
  simp only [List.mem_cons, List.not_mem_nil, or_false] at hl
  rcases hl with rfl | rfl | rfl <;> exact ⟨by simp, by simp⟩

end Hidefix.Props
