import Verif.Proofs.SliceFacts
import Verif.Proofs.Sliced
import Verif.Proofs.Slices
import Verif.Proofs.BigEndian
import Verif.Proofs.GridFacts
import Verif.Proofs.Bridge
import Verif.Proofs.Indexing
import Verif.Spec.Select

/-!
# The slices only come from chunks that the selection overlaps

For every in-bounds selection, `Good` or not, in debug and release builds: the offset coordinates of the
iterator stay inside the selection, so that the chunk looked up contains a selected coordinate.
-/

set_option autoImplicit false

namespace Hidefix.Proofs
open Hidefix Hidefix.Spec Outcome

theorem carryRest_cnt {p : Profile} {ls : List Lane} (hl : ∀ l ∈ ls, l.off < l.cnt) {c : Nat}
    {offs : List Nat} (h : carryRest p c ls = ok offs) :
    List.Forall₂ (fun o (l : Lane) => o < l.cnt) offs ls := by
  induction ls generalizing c offs with
  | nil =>
    have := Outcome.ok.inj h
    subst this; exact .nil
  | cons l ls ih =>
    have hcnt : 0 < l.cnt := by have := hl l (by simp); omega
    have hR : ∀ x ∈ ls, x.off < x.cnt := fun x hx => hl x (by simp [hx])
    simp only [carryRest] at h
    obtain ⟨o, -, h⟩ := bind_eq_ok.1 h
    split at h
    · have := Outcome.ok.inj h
      subst this
      refine .cons (Nat.mod_lt _ hcnt) ?_
      clear h ih hl
      clear * - hR
      induction ls with
      | nil => exact .nil
      | cons m ls ih => exact .cons (hR m (by simp)) (ih fun x hx => hR x (by simp [hx]))
    · obtain ⟨r, h1, h⟩ := bind_eq_ok.1 h
      have := Outcome.ok.inj h
      subst this
      exact .cons (Nat.mod_lt _ hcnt) (ih hR h1)

theorem walk_cnt {p : Profile} {ls : List Lane} (hl : ∀ l ∈ ls, l.off < l.cnt)
    {stop c adv soff : Nat} {w : WalkOut} (h : walk p stop c adv soff ls = ok w) :
    List.Forall₂ (fun o (l : Lane) => o < l.cnt) w.offs ls := by
  induction ls generalizing c adv soff w with
  | nil =>
    have := Outcome.ok.inj h
    subst this; exact .nil
  | cons l ls ih =>
    have hcnt : 0 < l.cnt := by have := hl l (by simp); omega
    have hR : ∀ x ∈ ls, x.off < x.cnt := fun x hx => hl x (by simp [hx])
    simp only [walk] at h
    obtain ⟨csz, -, h⟩ := bind_eq_ok.1 h
    obtain ⟨o, -, h⟩ := bind_eq_ok.1 h
    split at h
    · obtain ⟨r, h1, h⟩ := bind_eq_ok.1 h
      have := Outcome.ok.inj h
      subst this
      exact .cons (Nat.mod_lt _ hcnt) (ih hR h1)
    · obtain ⟨_, -, h⟩ := bind_eq_ok.1 h
      obtain ⟨_, -, h⟩ := bind_eq_ok.1 h
      obtain ⟨_, -, h⟩ := bind_eq_ok.1 h
      obtain ⟨_, -, h⟩ := bind_eq_ok.1 h
      obtain ⟨_, -, h⟩ := bind_eq_ok.1 h
      obtain ⟨_, -, h⟩ := bind_eq_ok.1 h
      obtain ⟨_, -, h⟩ := bind_eq_ok.1 h
      obtain ⟨_, -, h⟩ := bind_eq_ok.1 h
      split at h
      · obtain ⟨r, h1, h⟩ := bind_eq_ok.1 h
        have := Outcome.ok.inj h
        subst this
        exact .cons (Nat.mod_lt _ hcnt) (ih hR h1)
      · obtain ⟨_, -, h⟩ := bind_eq_ok.1 h
        obtain ⟨r, h1, h⟩ := bind_eq_ok.1 h
        have := Outcome.ok.inj h
        subst this
        exact .cons (Nat.mod_lt _ hcnt) (carryRest_cnt hR h1)

theorem mkLanes_cols : ∀ (is os ns fs cs ds ss : List Nat), os.length = is.length →
    ns.length = is.length → fs.length = is.length → cs.length = is.length → ds.length = is.length →
    ss.length = is.length →
    (mkLanes is os ns fs cs ds ss).map Lane.off = os ∧ (mkLanes is os ns fs cs ds ss).map Lane.cnt = ns
  | [], [], [], _, _, _, _, _, _, _, _, _, _ => ⟨rfl, rfl⟩
  | i :: is, o :: os, n :: ns, f :: fs, c :: cs, d :: ds, s :: ss, h1, h2, h3, h4, h5, h6 => by
    obtain ⟨a, b⟩ := mkLanes_cols is os ns fs cs ds ss (by simpa using h1) (by simpa using h2)
      (by simpa using h3) (by simpa using h4) (by simpa using h5) (by simpa using h6)
    simp [mkLanes, a, b]
  | [], _ :: _, _, _, _, _, _, h, _, _, _, _, _ => by simp at h
  | [], [], _ :: _, _, _, _, _, _, h, _, _, _, _ => by simp at h
  | _ :: _, [], _, _, _, _, _, h, _, _, _, _, _ => by simp at h
  | _ :: _, _ :: _, [], _, _, _, _, _, h, _, _, _, _ => by simp at h
  | _ :: _, _ :: _, _ :: _, [], _, _, _, _, _, h, _, _, _ => by simp at h
  | _ :: _, _ :: _, _ :: _, _ :: _, [], _, _, _, _, _, h, _, _ => by simp at h
  | _ :: _, _ :: _, _ :: _, _ :: _, _ :: _, [], _, _, _, _, _, h, _ => by simp at h
  | _ :: _, _ :: _, _ :: _, _ :: _, _ :: _, _ :: _, [], _, _, _, _, _, h => by simp at h

/-- The state of the iterator is inside the selection. -/
structure Inside (s : Slicer) (start count : List Nat) : Prop where
  idx : s.indices = start
  cnt : s.counts = count
  lt : List.Forall₂ (fun o c => o < c) s.coords count

theorem inside_box {coords : List Nat} : ∀ {start count shape : List Nat},
    start.length = count.length → count.length = shape.length →
    (∀ t ∈ start.zip (count.zip shape), 0 < t.2.1 ∧ t.1 + t.2.1 ≤ t.2.2) →
    List.Forall₂ (fun o c => o < c) coords count →
    InBox start count (List.zipWith (fun i o => i + o) start coords) ∧
    InBox (shape.map fun _ => 0) shape (List.zipWith (fun i o => i + o) start coords) ∧
    ∀ t ∈ start.zip coords, ∃ n ∈ shape, t.1 + t.2 < n := by
  intro start
  induction start generalizing coords with
  | nil =>
    intro count shape h1 h2 _ h
    have := List.eq_nil_of_length_eq_zero h1.symm
    subst this
    have := List.eq_nil_of_length_eq_zero h2.symm
    subst this
    cases h
    simp [InBox]
  | cons i start ih =>
    intro count shape h1 h2 hb h
    match count, shape, h1, h2, h, hb with
    | c :: count, n :: shape, h1, h2, .cons (a := o) h3 h4, hb =>
      obtain ⟨k1, k2, k3⟩ := ih (shape := shape) (by simpa using h1) (by simpa using h2)
        (fun t ht => hb t (by simp [ht])) h4
      have := hb (i, c, n) (by simp)
      simp only at this
      refine ⟨?_, ?_, ?_⟩
      · simp only [List.zipWith_cons_cons, InBox]; exact ⟨by omega, k1⟩
      · simp only [List.zipWith_cons_cons, List.map_cons, InBox]; exact ⟨by omega, k2⟩
      · intro t ht
        simp only [List.zip_cons_cons, List.mem_cons] at ht
        rcases ht with rfl | ht
        · exact ⟨n, by simp, by simp only; omega⟩
        · obtain ⟨m, hm, h⟩ := k3 t ht
          exact ⟨m, by simp [hm], h⟩

theorem next_touched {p : Profile} {ds : Dataset} {start count : List Nat} (hwf : WF p ds)
    (hb : InBounds start count ds.shape) {s s' : Slicer} {it : Item} (hs : Inside s start count)
    (h : s.next p ds = ok (some (it, s'))) :
    (it.chunk ∈ ds.chunks ∧ ∃ x, InBox start count x ∧ InBox it.chunk.offset ds.chunkShape x) ∧
      Inside s' start count := by
  have hb' := hb
  unfold InBounds at hb'
  unfold Slicer.next at h
  split at h
  · simp at h
  split at h
  · -- scalar
    rename_i hsc
    have hsh : ds.shape = [] := by simpa [Dataset.isScalar] using hsc
    obtain ⟨_, -, h⟩ := bind_eq_ok.1 h
    obtain ⟨o, -, h⟩ := bind_eq_ok.1 h
    obtain ⟨c, hc, h⟩ := bind_eq_ok.1 h
    simp only [Outcome.ok.injEq, Option.some.injEq, Prod.mk.injEq] at h
    obtain ⟨rfl, rfl⟩ := h
    have hmem : c ∈ ds.chunks := by
      unfold index at hc
      cases hg : ds.chunks[0]? with
      | none => rw [hg] at hc; simp at hc
      | some c' =>
        rw [hg] at hc
        obtain rfl := Outcome.ok.inj hc
        exact List.mem_of_getElem? hg
    have hcs : ds.chunkShape = [] := List.eq_nil_of_length_eq_zero (by rw [← hwf.rank, hsh]; rfl)
    have hoff : c.offset = [] := by
      have : c.offset ∈ ds.chunks.map Chunk.offset := List.mem_map_of_mem hmem
      rw [hwf.grid, hsh, hcs] at this
      simpa [gridOffsets, gridDims, rowMajor] using this
    have h1 : start = [] := List.eq_nil_of_length_eq_zero (by rw [hb'.1, hsh]; rfl)
    have h2 : count = [] := List.eq_nil_of_length_eq_zero (by rw [hb'.2.1, hsh]; rfl)
    subst h1 h2
    exact ⟨⟨hmem, [], by simp [InBox], by simp [hoff, hcs, InBox]⟩, ⟨hs.idx, hs.cnt, hs.lt⟩⟩
  · obtain ⟨x, hx, h⟩ := bind_eq_ok.1 h
    obtain ⟨i1, i2, i3⟩ := inside_box (by omega) hb'.2.1 hb'.2.2 hs.lt
    rw [hs.idx, addAll_ok] at hx
    · obtain rfl := Outcome.ok.inj hx
      obtain ⟨c, hc, hmem, hbox, -⟩ := chunkAtCoord_ok hwf i2
      rw [hc, ok_bind] at h
      have key : ∃ w, walk p s.stop 0 0 s.offset (mkLanes s.indices s.coords s.counts c.offset
          ds.chunkShape ds.chunkDimSz ds.shape).reverse = ok w ∧ it.chunk = c ∧
          s'.indices = s.indices ∧ s'.counts = s.counts ∧ s'.coords = w.offs.reverse := by
        cases p with
        | debug =>
          obtain ⟨_, -, h⟩ := bind_eq_ok.1 h
          obtain ⟨_, -, h⟩ := bind_eq_ok.1 h
          obtain ⟨_, -, h⟩ := bind_eq_ok.1 h
          obtain ⟨w, hw, h⟩ := bind_eq_ok.1 h
          obtain ⟨_, -, h⟩ := bind_eq_ok.1 h
          obtain ⟨_, -, h⟩ := bind_eq_ok.1 h
          obtain ⟨_, -, h⟩ := bind_eq_ok.1 h
          obtain ⟨_, -, h⟩ := bind_eq_ok.1 h
          obtain ⟨rfl, rfl⟩ := Prod.mk.inj (Option.some.inj (Outcome.ok.inj h))
          exact ⟨w, hw, rfl, rfl, rfl, rfl⟩
        | release =>
          obtain ⟨_, -, h⟩ := bind_eq_ok.1 h
          obtain ⟨_, -, h⟩ := bind_eq_ok.1 h
          obtain ⟨w, hw, h⟩ := bind_eq_ok.1 h
          obtain ⟨_, -, h⟩ := bind_eq_ok.1 h
          obtain ⟨_, -, h⟩ := bind_eq_ok.1 h
          obtain ⟨_, -, h⟩ := bind_eq_ok.1 h
          obtain ⟨rfl, rfl⟩ := Prod.mk.inj (Option.some.inj (Outcome.ok.inj h))
          exact ⟨w, hw, rfl, rfl, rfl, rfl⟩
      obtain ⟨w, hw, rfl, e1, e2, e3⟩ := key
      refine ⟨⟨hmem, _, i1, hbox⟩, ⟨e1.trans hs.idx, e2.trans hs.cnt, ?_⟩⟩
      have hl1 := hs.lt.length_eq
      have hlo : it.chunk.offset.length = ds.shape.length := by
        have : it.chunk.offset ∈ ds.chunks.map Chunk.offset := List.mem_map_of_mem hmem
        rw [hwf.grid, mem_gridOffsets _ _ _ hwf.rank hwf.pos] at this
        exact this.inside.1
      have hld : ds.chunkDimSz.length = ds.shape.length := by
        rw [hwf.fields.2.2.2.1, stridesOf_length, hwf.rank]
      obtain ⟨m1, m2⟩ := mkLanes_cols s.indices s.coords s.counts it.chunk.offset ds.chunkShape
        ds.chunkDimSz ds.shape (by rw [hs.idx]; omega) (by rw [hs.idx, hs.cnt]; omega)
        (by rw [hs.idx]; omega) (by rw [hs.idx]; have := hwf.rank; omega) (by rw [hs.idx]; omega)
        (by rw [hs.idx]; omega)
      have hlt : List.Forall₂ (fun o c => o < c) ((mkLanes s.indices s.coords s.counts it.chunk.offset
          ds.chunkShape ds.chunkDimSz ds.shape).map Lane.off) ((mkLanes s.indices s.coords s.counts
          it.chunk.offset ds.chunkShape ds.chunkDimSz ds.shape).map Lane.cnt) := by
        rw [m1, m2, hs.cnt]; exact hs.lt
      rw [List.forall₂_map_left_iff, List.forall₂_map_right_iff, List.forall₂_same] at hlt
      have := walk_cnt (fun l hl => hlt l (List.mem_reverse.1 hl)) hw
      rw [e3, ← hs.cnt, ← m2, List.forall₂_map_right_iff]
      have := List.rel_reverse this
      rwa [List.reverse_reverse] at this
    · intro t ht
      obtain ⟨n, hn, h⟩ := i3 t ht
      exact Nat.lt_trans h (shape_lt_W hwf n hn)

/-- Every slice comes from a chunk that contains a selected coordinate, whatever the selection. -/
theorem trace_touched {p : Profile} {ds : Dataset} {start count : List Nat} (hwf : WF p ds)
    (hb : InBounds start count ds.shape) (fuel : Nat) {s : Slicer} (hs : Inside s start count) :
    ∀ it ∈ (Slicer.trace p ds fuel s).items,
      it.chunk ∈ ds.chunks ∧ ∃ x, InBox start count x ∧ InBox it.chunk.offset ds.chunkShape x := by
  induction fuel generalizing s with
  | zero => simp [Slicer.trace]
  | succ fuel ih =>
    intro it hit
    simp only [Slicer.trace] at hit
    split at hit
    · simp at hit
    · rename_i it' s' hn
      obtain ⟨h1, h2⟩ := next_touched hwf hb hs hn
      simp only [List.mem_cons] at hit
      rcases hit with rfl | hit
      · exact h1
      · exact ih h2 _ hit
    all_goals simp at hit

theorem slices_touched {p : Profile} {ds : Dataset} {ext : Extents} {start count : List Nat}
    (hwf : WF p ds) (hsel : Selects ext ds.shape start count) (hb : InBounds start count ds.shape)
    {t : Trace Item} (h : ds.chunkSlices p ext = ok t) : ∀ it ∈ t.items,
      it.chunk ∈ ds.chunks ∧ ∃ x, InBox start count x ∧ InBox it.chunk.offset ds.chunkShape x := by
  unfold Dataset.chunkSlices at h
  obtain ⟨s, hs, h⟩ := bind_eq_ok.1 h
  obtain rfl := Outcome.ok.inj h
  obtain ⟨i, c, oob, h1, -, hs⟩ := chunkSlicer_inv hs
  rw [(selects_iff ext ds.shape start count).2 hsel] at h1
  obtain ⟨rfl, rfl⟩ := Prod.mk.inj (Outcome.ok.inj h1)
  split at hs
  · obtain rfl := Outcome.ok.inj hs
    intro it hit
    have : (Slicer.run p ds (Slicer.empty ds)).items = [] := by
      unfold Slicer.run Slicer.fuel
      rw [Slicer.trace]
      simp [Slicer.next, Slicer.empty]
    rw [this] at hit
    simp at hit
  · refine trace_touched hwf hb _ ?_
    have hb' := hb
    unfold InBounds at hb'
    have hpos := mem_count_of_bounds hb
    have key : s.indices = start ∧ s.counts = count ∧ s.coords = ds.shape.map fun _ => 0 := by
      unfold Slicer.new at hs
      cases p with
      | debug =>
        dsimp only at hs
        split at hs
        · skip
          obtain ⟨_, -, hs⟩ := bind_eq_ok.1 hs
          obtain ⟨_, -, hs⟩ := bind_eq_ok.1 hs
          obtain ⟨_, -, hs⟩ := bind_eq_ok.1 hs
          obtain ⟨_, -, hs⟩ := bind_eq_ok.1 hs
          obtain ⟨_, -, hs⟩ := bind_eq_ok.1 hs
          obtain ⟨_, -, hs⟩ := bind_eq_ok.1 hs
          obtain ⟨_, -, hs⟩ := bind_eq_ok.1 hs
          obtain rfl := Outcome.ok.inj hs
          exact ⟨rfl, rfl, rfl⟩
        · skip
          obtain ⟨_, -, hs⟩ := bind_eq_ok.1 hs
          obtain ⟨_, -, hs⟩ := bind_eq_ok.1 hs
          obtain ⟨_, -, hs⟩ := bind_eq_ok.1 hs
          obtain ⟨_, -, hs⟩ := bind_eq_ok.1 hs
          obtain ⟨_, -, hs⟩ := bind_eq_ok.1 hs
          obtain ⟨_, -, hs⟩ := bind_eq_ok.1 hs
          obtain rfl := Outcome.ok.inj hs
          exact ⟨rfl, rfl, rfl⟩
      | release =>
        dsimp only at hs
        split at hs
        · skip
          obtain ⟨_, -, hs⟩ := bind_eq_ok.1 hs
          obtain ⟨_, -, hs⟩ := bind_eq_ok.1 hs
          obtain ⟨_, -, hs⟩ := bind_eq_ok.1 hs
          obtain ⟨_, -, hs⟩ := bind_eq_ok.1 hs
          obtain ⟨_, -, hs⟩ := bind_eq_ok.1 hs
          obtain ⟨_, -, hs⟩ := bind_eq_ok.1 hs
          obtain rfl := Outcome.ok.inj hs
          exact ⟨rfl, rfl, rfl⟩
        · skip
          obtain ⟨_, -, hs⟩ := bind_eq_ok.1 hs
          obtain ⟨_, -, hs⟩ := bind_eq_ok.1 hs
          obtain ⟨_, -, hs⟩ := bind_eq_ok.1 hs
          obtain ⟨_, -, hs⟩ := bind_eq_ok.1 hs
          obtain ⟨_, -, hs⟩ := bind_eq_ok.1 hs
          obtain rfl := Outcome.ok.inj hs
          exact ⟨rfl, rfl, rfl⟩
    obtain ⟨k1, k2, k3⟩ := key
    refine ⟨k1, k2, ?_⟩
    rw [k3]
    have hlen : ds.shape.length = count.length := hb'.2.1.symm
    revert hlen hpos
    generalize ds.shape = sh
    clear * -
    intro hpos hlen
    induction sh generalizing count with
    | nil =>
      have := List.eq_nil_of_length_eq_zero hlen.symm
      subst this; exact .nil
    | cons n sh ih =>
      match count, hpos, hlen with
      | c :: count, hpos, hlen =>
        exact .cons (hpos c (by simp)) (ih (fun x hx => hpos x (by simp [hx])) (by simpa using hlen))

end Hidefix.Proofs
