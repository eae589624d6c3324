import Verif.Spec.Remote
import Verif.Proofs.Direct

/-!
# Grouping slices into requests
-/

set_option autoImplicit false

namespace Hidefix.Proofs
open Hidefix Hidefix.Spec Outcome

/-- Invariant of the grouping loop. -/
structure ReqInv (done : List GItem) (acc : List Request) : Prop where
  good : ∀ r ∈ acc, RequestOk r
  keys : (acc.flatMap Request.slices).map sliceKey = done.map sliceKey
  mem : ∀ r ∈ acc, ∀ cs ∈ r.chunks, ∃ g ∈ done, g.chunk = cs.1
  sep : acc.IsChain Separate

theorem newRequest_ok {p : Profile} {g : GItem} (h : g.chunk.addr + g.chunk.size < W) :
    newRequest p g = ok ⟨g.chunk.addr, g.chunk.addr + g.chunk.size,
      [(g.chunk, [⟨g.current, g.start, g.stop⟩])]⟩ := by
  unfold newRequest
  rw [add64_of_lt h, ok_bind]

theorem newRequest_good (g : GItem) : RequestOk ⟨g.chunk.addr, g.chunk.addr + g.chunk.size,
      [(g.chunk, [⟨g.current, g.start, g.stop⟩])]⟩ :=
  ⟨⟨_, _, rfl, rfl⟩, ⟨[], _, rfl, rfl⟩, by simp, by simp, .inr rfl⟩

theorem chain_start_le {l : List (Chunk × List Seg)} {c : Chunk × List Seg}
    {cs : Chunk × List Seg} (h : (c :: l).IsChain fun a b =>
      a.1.addr + a.1.size ≤ b.1.addr ∧ b.1.addr - (a.1.addr + a.1.size) ≤ 32768)
    (hm : cs ∈ c :: l) : c.1.addr ≤ cs.1.addr := by
  induction l generalizing c with
  | nil => simp at hm; subst hm; exact Nat.le_refl _
  | cons d l ih =>
    rw [List.isChain_cons_cons] at h
    rcases List.mem_cons.1 hm with rfl | hm
    · exact Nat.le_refl _
    · have := ih h.2 hm; omega

/-- Every chunk of a request lies inside its range. -/
theorem _root_.Hidefix.Spec.RequestOk.inside {r : Request} (h : RequestOk r) :
    ∀ cs ∈ r.chunks, r.start ≤ cs.1.addr ∧ cs.1.addr + cs.1.size ≤ r.stop := by
  obtain ⟨c, rest, hc, hs⟩ := h.first
  obtain ⟨init, d, hd, he⟩ := h.last
  intro cs hcs
  constructor
  · rw [hs]
    have hch := h.close
    rw [hc] at hch hcs
    exact chain_start_le hch hcs
  · have hch := h.close
    rw [hd] at hch hcs
    rw [he]
    clear hd hc hs
    induction init with
    | nil => simp at hcs; subst hcs; exact Nat.le_refl _
    | cons a init ih =>
      rcases List.mem_cons.1 hcs with rfl | hcs'
      · rw [List.cons_append] at hch
        cases init with
        | nil => simp at hch; omega
        | cons b init =>
          rw [List.cons_append, List.isChain_cons_cons] at hch
          have hh := chain_start_le (cs := d) hch.2 (by simp)
          omega
      · exact ih hcs' (List.IsChain.tail hch)

theorem requestStep_ok {p : Profile} {done : List GItem} {acc : List Request} {g : GItem}
    (h : ReqInv done acc) (hg : g.chunk.addr + g.chunk.size < W) :
    ∃ acc', requestStep p acc g = ok acc' ∧ ReqInv (done ++ [g]) acc' := by
  unfold requestStep
  rcases List.eq_nil_or_concat acc with rfl | ⟨init, r, rfl⟩
  · simp only [List.getLast?_nil]
    rw [newRequest_ok hg]
    refine ⟨_, rfl, ?_⟩
    have hk := h.keys
    simp at hk
    have hd : done = [] := by simpa using hk.symm
    subst hd
    exact ⟨by simpa using newRequest_good g, by simp [Request.slices, sliceKey], by simp, by simp⟩
  · simp only [List.concat_eq_append] at h ⊢
    rw [List.getLast?_concat]
    simp only
    have hr : RequestOk r := h.good r (by simp)
    obtain ⟨ci, ⟨c, segs⟩, hcs, hstop⟩ := hr.last
    obtain ⟨c0, crest, hc0, hstart⟩ := hr.first
    rw [hcs, List.getLast?_concat]
    simp only [List.dropLast_concat] at hstop ⊢
    have hkeys := h.keys
    simp only [List.flatMap_append, List.map_append, List.flatMap_cons, List.flatMap_nil,
      List.append_nil] at hkeys
    have hgood : ∀ r' ∈ init, RequestOk r' := fun r' hr' => h.good r' (by simp [hr'])
    have hmem : ∀ r' ∈ init, ∀ cs ∈ r'.chunks, ∃ g' ∈ done ++ [g], g'.chunk = cs.1 := by
      intro r' hr' cs hcs'
      obtain ⟨g', hg', e⟩ := h.mem r' (by simp [hr']) cs hcs'
      exact ⟨g', by simp [hg'], e⟩
    have hmr : ∀ cs ∈ ci ++ [(c, segs)], ∃ g' ∈ done ++ [g], g'.chunk = cs.1 := by
      intro cs hcs'
      obtain ⟨g', hg', e⟩ := h.mem r (by simp) cs (by rw [hcs]; exact hcs')
      exact ⟨g', by simp [hg'], e⟩
    have hsepc : ∀ r' : Request, r'.start = r.start → r'.chunks.head?.map Prod.fst =
        r.chunks.head?.map Prod.fst →
        (init ++ [r']).IsChain Separate := by
      intro r' h1 h2
      have hs := h.sep
      rw [List.isChain_append] at hs ⊢
      refine ⟨hs.1, by simp, ?_⟩
      intro x hx y hy
      have := hs.2.2 x hx r (by simp)
      simp at hy
      subst hy
      unfold Separate at this ⊢
      rw [h1]
      rcases this with h' | h' | ⟨k, rest, hk, h'⟩
      · exact .inl h'
      · exact .inr (.inl h')
      · rw [hk] at h2
        cases hch : r'.chunks with
        | nil => rw [hch] at h2; simp at h2
        | cons k' rest' =>
          rw [hch] at h2
          simp at h2
          exact .inr (.inr ⟨k', rest', rfl, by rw [h2]; exact h'⟩)
    by_cases ha : c.addr = g.chunk.addr
    · rw [if_pos ha]
      refine ⟨_, rfl, ?_, ?_, ?_, ?_⟩
      · intro r' hr'
        rcases List.mem_append.1 hr' with hr' | hr'
        · exact hgood r' hr'
        · rw [List.mem_singleton] at hr'
          subst hr'
          refine ⟨?_, ⟨ci, _, rfl, hstop⟩, ?_, ?_, ?_⟩
          · cases ci with
            | nil =>
              rw [List.nil_append] at hcs
              rw [hcs] at hc0
              simp at hc0
              exact ⟨_, _, rfl, by rw [hstart, ← hc0.1]⟩
            | cons x ci =>
              rw [hcs] at hc0
              simp at hc0
              exact ⟨x, _, rfl, by rw [hstart, ← hc0.1]⟩
          · have := hr.close
            rw [hcs, List.isChain_append] at this
            rw [List.isChain_append]
            refine ⟨this.1, by simp, fun x hx y hy => ?_⟩
            simp at hy
            subst hy
            exact this.2.2 x hx (c, segs) (by simp)
          · intro cs hcs'
            rcases List.mem_append.1 hcs' with h' | h'
            · exact hr.used cs (by rw [hcs]; simp [h'])
            · simp at h'; subst h'; simp
          · rcases hr.size with h' | h'
            · exact .inl h'
            · right; rw [hcs] at h'; simpa using h'
      · simp only [List.flatMap_append, List.map_append, List.flatMap_cons, List.flatMap_nil,
          List.append_nil]
        rw [← hkeys]
        rw [show Request.slices r = ci.flatMap (fun cs => cs.2.map fun s =>
          (⟨cs.1, s.current, s.start, s.stop⟩ : GItem)) ++ segs.map (fun s =>
          (⟨c, s.current, s.start, s.stop⟩ : GItem)) by
            simp [Request.slices, hcs]]
        simp [Request.slices, sliceKey, ha]
      · intro r' hr' cs hcs'
        rcases List.mem_append.1 hr' with hr' | hr'
        · exact hmem r' hr' cs hcs'
        · rw [List.mem_singleton] at hr'
          subst hr'
          simp only [List.mem_append, List.mem_singleton] at hcs'
          rcases hcs' with h' | rfl
          · exact hmr cs (by simp [h'])
          · exact hmr (c, segs) (by simp)
      · refine hsepc _ rfl ?_
        simp only [hcs]
        cases ci <;> simp
    · rw [if_neg ha]
      have hrc : r.start ≤ r.stop := by
        have := hr.inside (c, segs) (by rw [hcs]; simp)
        dsimp only at this
        omega
      have key : ∃ b : Bool, coalesces p r g.chunk = ok b ∧ (b = true ↔
          r.stop ≤ g.chunk.addr ∧ g.chunk.addr - r.stop ≤ 32768 ∧
            g.chunk.addr + g.chunk.size - r.start ≤ 8388608) := by
        unfold coalesces coalesceGap maxRequestSz
        by_cases h1 : g.chunk.addr < r.stop
        · rw [if_pos h1]; exact ⟨_, rfl, by simp; omega⟩
        · rw [if_neg h1]
          by_cases h2 : 32768 < g.chunk.addr - r.stop
          · rw [if_pos h2]; exact ⟨_, rfl, by simp; omega⟩
          · rw [if_neg h2, add64_of_lt hg, ok_bind, sub64_of_le (by omega), ok_bind]
            exact ⟨_, rfl, by simp; omega⟩
      obtain ⟨b, hb, hbiff⟩ := key
      rw [hb, ok_bind]
      cases b with
      | true =>
        obtain ⟨k1, k2, k3⟩ := hbiff.1 rfl
        simp only [if_true]
        rw [add64_of_lt hg, ok_bind]
        refine ⟨_, rfl, ?_, ?_, ?_, ?_⟩
        · intro r' hr'
          rcases List.mem_append.1 hr' with hr' | hr'
          · exact hgood r' hr'
          · rw [List.mem_singleton] at hr'
            subst hr'
            refine ⟨?_, ⟨_, _, rfl, rfl⟩, ?_, ?_, .inl k3⟩
            · rw [← hcs, hc0]; exact ⟨c0, _, rfl, hstart⟩
            · have := hr.close
              rw [hcs] at this
              rw [List.isChain_append]
              refine ⟨this, by simp, fun x hx y hy => ?_⟩
              rw [List.getLast?_concat] at hx
              simp at hx hy
              subst hx; subst hy
              dsimp only
              rw [← hstop]
              exact ⟨k1, k2⟩
            · intro cs hcs'
              rcases List.mem_append.1 hcs' with h' | h'
              · exact hr.used cs (by rw [hcs]; exact h')
              · simp at h'; subst h'; simp
        · simp only [List.flatMap_append, List.map_append, List.flatMap_cons, List.flatMap_nil,
            List.append_nil]
          rw [← hkeys]
          rw [show Request.slices r = ci.flatMap (fun cs => cs.2.map fun s =>
            (⟨cs.1, s.current, s.start, s.stop⟩ : GItem)) ++ segs.map (fun s =>
            (⟨c, s.current, s.start, s.stop⟩ : GItem)) by
              simp [Request.slices, hcs]]
          simp [Request.slices, sliceKey]
        · intro r' hr' cs hcs'
          rcases List.mem_append.1 hr' with hr' | hr'
          · exact hmem r' hr' cs hcs'
          · rw [List.mem_singleton] at hr'
            subst hr'
            rw [List.mem_append] at hcs'
            rcases hcs' with h' | h'
            · exact hmr cs h'
            · simp at h'; subst h'; exact ⟨g, by simp, rfl⟩
        · refine hsepc _ rfl ?_
          simp only [hcs]
          cases ci <;> simp
      | false =>
        have hn : ¬ (r.stop ≤ g.chunk.addr ∧ g.chunk.addr - r.stop ≤ 32768 ∧
            g.chunk.addr + g.chunk.size - r.start ≤ 8388608) := fun hh => by
          have := hbiff.2 hh; simp at this
        simp only [Bool.false_eq_true, if_false]
        rw [newRequest_ok hg, ok_bind]
        refine ⟨_, rfl, ?_, ?_, ?_, ?_⟩
        · intro r' hr'
          rcases List.mem_append.1 hr' with hr' | hr'
          · exact h.good r' hr'
          · rw [List.mem_singleton] at hr'; subst hr'; exact newRequest_good g
        · rw [List.flatMap_append, List.map_append, h.keys]
          simp [Request.slices, sliceKey]
        · intro r' hr' cs hcs'
          rcases List.mem_append.1 hr' with hr' | hr'
          · obtain ⟨g', hg', e⟩ := h.mem r' hr' cs hcs'
            exact ⟨g', by simp [hg'], e⟩
          · rw [List.mem_singleton] at hr'; subst hr'; simp at hcs'; subst hcs'; exact ⟨g, by simp, rfl⟩
        · rw [List.isChain_append]
          refine ⟨h.sep, by simp, fun x hx y hy => ?_⟩
          rw [List.getLast?_concat] at hx
          simp at hx hy
          subst hx; subst hy
          unfold Separate
          dsimp only
          by_cases q1 : g.chunk.addr < r.stop
          · exact .inl q1
          · by_cases q2 : 32768 < g.chunk.addr - r.stop
            · exact .inr (.inl q2)
            · exact .inr (.inr ⟨_, _, rfl, by dsimp only; omega⟩)

theorem groupFold_ok {p : Profile} {gs done : List GItem} {acc : List Request}
    (h : ReqInv done acc) (hg : ∀ g ∈ gs, g.chunk.addr + g.chunk.size < W) :
    ∃ reqs, gs.foldlM (requestStep p) acc = ok reqs ∧ ReqInv (done ++ gs) reqs := by
  induction gs generalizing done acc with
  | nil => exact ⟨acc, rfl, by simpa using h⟩
  | cons g gs ih =>
    obtain ⟨acc', h1, h2⟩ := requestStep_ok (p := p) h (hg g (by simp))
    obtain ⟨reqs, h3, h4⟩ := ih h2 (fun x hx => hg x (by simp [hx]))
    exact ⟨reqs, by rw [List.foldlM_cons, h1, ok_bind, h3], by simpa using h4⟩

theorem groupRequests_ok {p : Profile} {gs : List GItem}
    (hg : ∀ g ∈ gs, g.chunk.addr + g.chunk.size < W) :
    ∃ reqs, groupRequests p gs = ok reqs ∧ ReqInv gs reqs :=
  groupFold_ok (done := []) ⟨by simp, rfl, by simp, by simp⟩ hg

end Hidefix.Proofs
