import Verif.Proofs.Wrapped

/-!
# Release builds, whatever the slices: the cached and the parallel reader
-/

set_option autoImplicit false

namespace Hidefix.Proofs
open Hidefix Hidefix.Spec Outcome

theorem part_one (v : List Byte) (a b : Nat) : part 1 v a b = (v.drop a).take (b - a) := by
  simp [part]

/-! ## `CacheReader::read_to` -/

theorem nocacheStep_release {D : Chunk → Outcome (List Byte)} {dsz off : Nat} {dst : List Byte}
    {it : Item} {s1 : Nat × List Byte} :
    nocacheStep .release D dsz (off, dst) it = ok s1 ↔
      (normI dsz it).start ≤ (normI dsz it).stop ∧ Ready D 1 it.chunk (normI dsz it).stop ∧
      off + ((normI dsz it).stop - (normI dsz it).start) ≤ dst.length ∧
      s1 = (off + ((normI dsz it).stop - (normI dsz it).start), blit dst off (bytesN D dsz it)) := by
  unfold nocacheStep
  simp only [mul64_release, debugAssert_release, ok_bind, normI, bytesN, bytesOf, part_one]
  generalize it.start * dsz % W = a
  generalize it.stop * dsz % W = b
  have hsub : ∃ d, sub64 .release b a = ok d := by unfold sub64; split <;> exact ⟨_, rfl⟩
  obtain ⟨d, hd⟩ := hsub
  rw [hd, ok_bind]
  cases hD : D it.chunk with
  | ok v =>
    simp only [ok_bind, Ready, hD, valOf, Outcome.ok.injEq, exists_eq_left', Nat.mul_one]
    constructor
    · intro h
      obtain ⟨src, h3, h⟩ := bind_eq_ok.1 h
      obtain ⟨d', h4, h⟩ := bind_eq_ok.1 h
      obtain rfl := Outcome.ok.inj h
      unfold sliceOf at h3
      split at h3
      · rename_i hab
        rw [sub64_of_le hab.1] at hd
        obtain rfl := Outcome.ok.inj hd
        obtain rfl := Outcome.ok.inj h3
        unfold copyTo at h4
        split at h4
        · rename_i hc
          obtain rfl := Outcome.ok.inj h4
          exact ⟨hab.1, hab.2, hc.2.1, rfl⟩
        · simp at h4
      · simp at h3
    · rintro ⟨h1, h2, h3, rfl⟩
      rw [sub64_of_le h1] at hd
      obtain rfl := Outcome.ok.inj hd
      unfold sliceOf
      rw [if_pos ⟨h1, h2⟩, ok_bind]
      unfold copyTo
      rw [if_pos ⟨by omega, h3, by rw [List.length_take, List.length_drop]; omega⟩, ok_bind]
  | err e => simp [Ready, hD]
  | panic e => simp [Ready, hD]
  | ub => simp [Ready, hD]
  | diverge => simp [Ready, hD]

theorem bytesN_length {D : Chunk → Outcome (List Byte)} {dsz : Nat} {it : Item}
    (h1 : (normI dsz it).start ≤ (normI dsz it).stop) (h2 : Ready D 1 it.chunk (normI dsz it).stop) :
    (bytesN D dsz it).length = (normI dsz it).stop - (normI dsz it).start := by
  have := bytesOf_length (D := D) (dsz := 1) (it := normI dsz it) h1 h2
  rw [Nat.mul_one] at this
  exact this

theorem nocacheFold_release {D : Chunk → Outcome (List Byte)} {dsz : Nat} :
    ∀ {items : List Item} {off : Nat} {dst : List Byte} {s' : Nat × List Byte}, off ≤ dst.length →
    (items.foldlM (nocacheStep .release D dsz) (off, dst) = ok s' ↔
      ((∀ it ∈ items.map (normI dsz), it.start ≤ it.stop ∧ Ready D 1 it.chunk it.stop) ∧
        off + total (items.map (normI dsz)) ≤ dst.length) ∧
      s' = (off + total (items.map (normI dsz)), blit dst off (items.flatMap (bytesN D dsz)))) := by
  intro items
  induction items with
  | nil =>
    intro off dst s' ho
    simp [total, ho, blit_nil, eq_comm]
  | cons it its ih =>
    intro off dst s' ho
    rw [List.foldlM_cons, bind_eq_ok]
    simp only [nocacheStep_release, List.map_cons, total_cons, List.mem_cons, forall_eq_or_imp,
      List.flatMap_cons]
    have hlen : (normI dsz it).start ≤ (normI dsz it).stop → Ready D 1 it.chunk (normI dsz it).stop →
        off + ((normI dsz it).stop - (normI dsz it).start) ≤ dst.length →
        (blit dst off (bytesN D dsz it)).length = dst.length := by
      intro h1 h2 h3
      exact blit_length (by rw [bytesN_length h1 h2]; exact h3)
    have hcat : ∀ (h1 : (normI dsz it).start ≤ (normI dsz it).stop)
        (h2 : Ready D 1 it.chunk (normI dsz it).stop)
        (h3 : off + ((normI dsz it).stop - (normI dsz it).start) ≤ dst.length)
        (h4 : ∀ it ∈ its.map (normI dsz), it.start ≤ it.stop ∧ Ready D 1 it.chunk it.stop)
        (h5 : off + ((normI dsz it).stop - (normI dsz it).start) + total (its.map (normI dsz)) ≤
          dst.length),
        blit (blit dst off (bytesN D dsz it)) (off + ((normI dsz it).stop - (normI dsz it).start))
          (its.flatMap (bytesN D dsz)) = blit dst off (bytesN D dsz it ++ its.flatMap (bytesN D dsz)) := by
      intro h1 h2 h3 h4 h5
      rw [← bytesN_length h1 h2]
      apply blit_blit
      have hl : (its.flatMap (bytesN D dsz)).length = total (its.map (normI dsz)) := by
        clear ih h5
        induction its with
        | nil => simp [total]
        | cons x xs ihx =>
          have hx := h4 (normI dsz x) (by simp)
          rw [List.flatMap_cons, List.length_append, List.map_cons, total_cons,
            bytesN_length hx.1 hx.2, ihx (fun y hy => h4 y (by simp only [List.map_cons, List.mem_cons, hy, or_true]))]
      rw [bytesN_length h1 h2, hl]; exact h5
    constructor
    · rintro ⟨_, ⟨h1, h2, h3, rfl⟩, h⟩
      rw [ih (by rw [hlen h1 h2 h3]; exact h3), hlen h1 h2 h3] at h
      obtain ⟨⟨q1, q2⟩, q3⟩ := h
      refine ⟨⟨⟨⟨h1, h2⟩, q1⟩, by omega⟩, ?_⟩
      rw [q3, hcat h1 h2 h3 q1 q2, Nat.add_assoc]
    · rintro ⟨⟨⟨⟨h1, h2⟩, q1⟩, q2⟩, q3⟩
      have h3 : off + ((normI dsz it).stop - (normI dsz it).start) ≤ dst.length := by omega
      refine ⟨_, ⟨h1, h2, h3, rfl⟩, ?_⟩
      rw [ih (by rw [hlen h1 h2 h3]; exact h3), hlen h1 h2 h3]
      refine ⟨⟨q1, by omega⟩, ?_⟩
      rw [q3, hcat h1 h2 h3 q1 (by omega), Nat.add_assoc]

theorem nocacheReadTo_release {io : Io} {file : List Byte} {ds : Dataset} {chunkSz : Nat}
    {ext : Extents} {items : List Item} {vsz : Nat} {dst : List Byte}
    (hs : ds.chunkSlices .release ext = ok ⟨items, ok ()⟩) (hv : reqBytes .release ds ext = ok vsz)
    (hn : vsz ≤ dst.length) :
    (∀ n, (nocacheReadTo .release io file ds chunkSz ext dst).1 = ok n ↔
      n = vsz ∧ FineAll (rawD .release io file ds chunkSz) ds.dsize dst.length items) ∧
    (FineAll (rawD .release io file ds chunkSz) ds.dsize dst.length items →
      nocacheReadTo .release io file ds chunkSz ext dst =
        (ok vsz, blit dst 0 (items.flatMap (bytesN (rawD .release io file ds chunkSz) ds.dsize)))) := by
  have hfold := fun s' => nocacheFold_release (D := rawD .release io file ds chunkSz)
    (dsz := ds.dsize) (items := items) (off := 0) (dst := dst) (s' := s') (Nat.zero_le _)
  simp only [Nat.zero_add] at hfold
  unfold nocacheReadTo
  rw [hv, ok_bind, show decide (vsz ≤ dst.length) = true by simpa using hn, ensure_true, ok_bind,
    hs, ok_bind]
  simp only [ok_bind]
  refine ⟨fun n => ⟨fun ho => ?_, ?_⟩, fun hr => ?_⟩
  · obtain ⟨_, h1, h2⟩ := bind_eq_ok.1 ho
    exact ⟨(Outcome.ok.inj h2).symm, ((hfold _).1 (loop_fst_ok h1)).1⟩
  · rintro ⟨rfl, hr⟩
    rw [loop_ok_iff.2 ((hfold _).2 ⟨hr, rfl⟩)]
    rfl
  · rw [loop_ok_iff.2 ((hfold _).2 ⟨hr, rfl⟩)]
    rfl

/-! ## `Direct::read_to_par` -/

theorem parSegment_release {ds : Dataset} {v : List Byte} {n : Nat} {ws ws' : List Write} {g : GItem} :
    parSegment .release ds v n ws g = ok ws' ↔
      (Tame 1 n (norm ds.dsize g) ∧ (norm ds.dsize g).stop ≤ v.length) ∧
      ws' = ws ++ [⟨(norm ds.dsize g).current * 1,
        part 1 v (norm ds.dsize g).start (norm ds.dsize g).stop⟩] := by
  unfold parSegment
  simp only [mul64_release, debugAssert_release, ok_bind, norm, part_one, Nat.mul_one]
  have ha : g.start * ds.dsize % W < W := Nat.mod_lt _ W_pos
  have hb : g.stop * ds.dsize % W < W := Nat.mod_lt _ W_pos
  generalize g.start * ds.dsize % W = a at *
  generalize g.stop * ds.dsize % W = b at *
  generalize g.current * ds.dsize % W = cur
  have hsub : ∃ d, sub64 .release b a = ok d := by unfold sub64; split <;> exact ⟨_, rfl⟩
  obtain ⟨d, hd⟩ := hsub
  rw [hd, ok_bind]
  constructor
  · intro h
    split at h
    · simp at h
    · obtain ⟨src, h3, h⟩ := bind_eq_ok.1 h
      unfold sliceOf at h3
      split at h3
      · rename_i hab
        rw [sub64_of_le hab.1] at hd
        obtain rfl := Outcome.ok.inj hd
        obtain rfl := Outcome.ok.inj h3
        split at h
        · rename_i hf
          exact ⟨⟨⟨hab.1, by simpa using hb, by simpa using hf⟩, hab.2⟩, (Outcome.ok.inj h).symm⟩
        · simp at h
      · simp at h3
  · rintro ⟨⟨⟨h1, -, h3⟩, h4⟩, rfl⟩
    simp only [Nat.mul_one] at h1 h3
    rw [sub64_of_le h1] at hd
    obtain rfl := Outcome.ok.inj hd
    rw [if_neg (by omega)]
    unfold sliceOf
    rw [if_pos ⟨h1, h4⟩, ok_bind, if_pos h3]

theorem parFold_release {ds : Dataset} {v : List Byte} {n : Nat} {gs : List GItem}
    {ws ws' : List Write} :
    gs.foldlM (parSegment .release ds v n) ws = ok ws' ↔
      (∀ g ∈ gs, Tame 1 n (norm ds.dsize g) ∧ (norm ds.dsize g).stop ≤ v.length) ∧
      ws' = ws ++ gs.map fun g => ⟨(norm ds.dsize g).current * 1,
        part 1 v (norm ds.dsize g).start (norm ds.dsize g).stop⟩ := by
  induction gs generalizing ws with
  | nil => simp [eq_comm]
  | cons g gs ih =>
    rw [List.foldlM_cons, bind_eq_ok]
    simp only [parSegment_release, ih, List.mem_cons, forall_eq_or_imp, List.map_cons]
    constructor
    · rintro ⟨_, ⟨h1, rfl⟩, h2, rfl⟩
      exact ⟨⟨h1, h2⟩, by simp⟩
    · rintro ⟨⟨h1, h2⟩, rfl⟩
      exact ⟨_, ⟨h1, rfl⟩, h2, by simp⟩

/-- One group succeeds exactly if all its copies are in range. -/
theorem parGroup_release {io : Io} {file : List Byte} {ds : Dataset} {chunkSz n : Nat}
    (hdet : AddrDet ds) (hf : io.file = some file) {g0 : GItem} {rest : List GItem}
    (hadd : ∀ x ∈ g0 :: rest, x.chunk.addr = g0.chunk.addr)
    (hmem : ∀ x ∈ g0 :: rest, x.chunk ∈ ds.chunks) :
    ((parGroup .release io ds chunkSz n (g0 :: rest)).1 = ok () ↔
      ∀ g ∈ g0 :: rest, Fine (rawD .release io file ds chunkSz) ds.dsize n g) ∧
    ((parGroup .release io ds chunkSz n (g0 :: rest)).1 = ok () →
      (parGroup .release io ds chunkSz n (g0 :: rest)).2 =
        (g0 :: rest).map (wrN (rawD .release io file ds chunkSz) ds.dsize)) := by
  have hDeq : ∀ x ∈ g0 :: rest, rawD .release io file ds chunkSz x.chunk =
      rawD .release io file ds chunkSz g0.chunk := fun x hx =>
    rawD_local _ _ _ _ _ _ _ (hadd x hx) (hdet _ (hmem x hx) _ (hmem g0 (by simp)) (hadd x hx))
  have hno : ∀ o : Outcome (List Byte), rawD .release io file ds chunkSz g0.chunk = o →
      (∀ v, o ≠ ok v) → ¬ ∀ g ∈ g0 :: rest, Fine (rawD .release io file ds chunkSz) ds.dsize n g := by
    intro o ho hne h
    obtain ⟨v, hv, -⟩ := (h g0 (by simp)).2
    rw [ho] at hv
    exact hne v hv
  unfold parGroup
  rw [hf]
  simp only
  have hD' : readChunk .release io file g0.chunk.addr g0.chunk.size chunkSz ds.dsize ds.gzip.isSome
    ds.shuffle = rawD .release io file ds chunkSz g0.chunk := rfl
  rw [hD']
  cases hD : rawD .release io file ds chunkSz g0.chunk with
  | ok v =>
    simp only
    have hfine : ∀ x ∈ g0 :: rest, (Fine (rawD .release io file ds chunkSz) ds.dsize n x ↔
        (Tame 1 n (norm ds.dsize x) ∧ (norm ds.dsize x).stop ≤ v.length)) := by
      intro x hx
      simp [Fine, Ready, hDeq x hx, hD]
    have hwr : ((g0 :: rest).map fun g => (⟨(norm ds.dsize g).current * 1,
        part 1 v (norm ds.dsize g).start (norm ds.dsize g).stop⟩ : Write)) =
        (g0 :: rest).map (wrN (rawD .release io file ds chunkSz) ds.dsize) := by
      apply List.map_congr_left
      intro x hx
      have e : rawD .release io file ds chunkSz (norm ds.dsize x).chunk = ok v := by
        rw [← hD]; exact hDeq x hx
      simp only [wrN, wr, e, valOf]
    have hall : (∀ g ∈ g0 :: rest, Fine (rawD .release io file ds chunkSz) ds.dsize n g) ↔
        ∀ g ∈ g0 :: rest, Tame 1 n (norm ds.dsize g) ∧ (norm ds.dsize g).stop ≤ v.length :=
      ⟨fun h g hg => (hfine g hg).1 (h g hg), fun h g hg => (hfine g hg).2 (h g hg)⟩
    rw [hall]
    constructor
    · constructor
      · intro h
        exact (parFold_release.1 (loop_fst_ok h)).1
      · intro h
        rw [loop_ok_iff.2 (parFold_release.2 ⟨h, rfl⟩)]
    · intro h
      rw [(parFold_release.1 (loop_fst_ok h)).2, List.nil_append, hwr]
  | err e => exact ⟨⟨by simp, fun h => absurd h (hno _ hD (by simp))⟩, by simp⟩
  | panic e => exact ⟨⟨by simp, fun h => absurd h (hno _ hD (by simp))⟩, by simp⟩
  | ub => exact ⟨⟨by simp, fun h => absurd h (hno _ hD (by simp))⟩, by simp⟩
  | diverge => exact ⟨⟨by simp, fun h => absurd h (hno _ hD (by simp))⟩, by simp⟩

/-- Every possible result of `read_to_par`: it succeeds exactly if all copies are in range. -/
theorem directPar_release {io : Io} {file : List Byte} {ds : Dataset} {chunkSz : Nat}
    {sort : List GItem → List GItem} {ext : Extents} {items : List Item} {vsz : Nat} {dst : List Byte}
    (hdet : AddrDet ds) (hsort : ∀ l : List GItem, l.Perm (sort l))
    (hc : chunkBytes .release ds = ok chunkSz) (hf : io.file = some file)
    (hs : ds.chunkSlices .release ext = ok ⟨items, ok ()⟩) (hv : reqBytes .release ds ext = ok vsz)
    (hn : vsz ≤ dst.length) (hW : dst.length < W) {res : Outcome Nat × List Byte}
    (hres : DirectReadToPar .release io ds sort ext dst res) :
    (∀ n, res.1 = ok n ↔
      n = vsz ∧ FineAll (rawD .release io file ds chunkSz) ds.dsize dst.length items) ∧
    (FineAll (rawD .release io file ds chunkSz) ds.dsize dst.length items →
      res = (ok vsz, blit dst 0 (items.flatMap (bytesN (rawD .release io file ds chunkSz) ds.dsize)))) := by
  obtain ⟨gs, hgu, hgs⟩ := groupUnsorted_release hs
  have hst := chunkSlices_start_lt hs
  have hperm := hsort gs
  obtain ⟨f1, -⟩ := fine_iff (D := rawD .release io file ds chunkSz) (dsz := ds.dsize) hW hst hgs
  have hmem : ∀ g ∈ gs, g.chunk ∈ ds.chunks := groupScan_mem hs hgs
  have hpre : parPrelude .release ds sort ext dst.length = ok (chunkSz, vsz, chunkBy (sort gs)) := by
    unfold parPrelude Dataset.groupChunkSlices
    rw [hc, ok_bind, hv, ok_bind, show decide (vsz ≤ dst.length) = true by simpa using hn,
      ensure_true, ok_bind, hgu, ok_bind, ok_bind]
  -- it is enough to show both directions of `ok`
  suffices H : (∀ n, res.1 = ok n → FineAll (rawD .release io file ds chunkSz) ds.dsize dst.length items) ∧
      (FineAll (rawD .release io file ds chunkSz) ds.dsize dst.length items →
      res = (ok vsz, blit dst 0 (items.flatMap (bytesN (rawD .release io file ds chunkSz) ds.dsize)))) by
    refine ⟨fun n => ⟨fun h => ?_, ?_⟩, H.2⟩
    · have hfa := H.1 n h
      have := H.2 hfa
      rw [this] at h
      exact ⟨(Outcome.ok.inj h).symm, hfa⟩
    · rintro ⟨rfl, hfa⟩
      rw [H.2 hfa]
  cases hres with
  | early e he hne =>
    rw [hpre] at he
    exact absurd he.symm (hne vsz)
  | ran chunkSz' vsz' groups r dst' hp hrun =>
    rw [hpre] at hp
    obtain ⟨rfl, hp2⟩ := Prod.mk.inj (Outcome.ok.inj hp)
    obtain ⟨rfl, rfl⟩ := Prod.mk.inj hp2
    generalize hL : sort gs = L at *
    have hflat := chunkBy_flatten L
    have hgrp : ∀ grp ∈ chunkBy L,
        ((parGroup .release io ds chunkSz dst.length grp).1 = ok () ↔
          ∀ g ∈ grp, Fine (rawD .release io file ds chunkSz) ds.dsize dst.length g) ∧
        ((parGroup .release io ds chunkSz dst.length grp).1 = ok () →
          (parGroup .release io ds chunkSz dst.length grp).2 =
            grp.map (wrN (rawD .release io file ds chunkSz) ds.dsize)) := by
      intro grp hgrp
      obtain ⟨g, rest, rfl, hadd⟩ := chunkBy_group L grp hgrp
      have hin : ∀ x ∈ g :: rest, x ∈ gs := fun x hx =>
        hperm.mem_iff.2 (by rw [← hflat]; exact List.mem_flatten.2 ⟨_, hgrp, hx⟩)
      exact parGroup_release hdet hf hadd (fun x hx => hmem _ (hin x hx))
    have hall : (∀ grp ∈ chunkBy L, (parGroup .release io ds chunkSz dst.length grp).1 = ok ()) ↔
        FineAll (rawD .release io file ds chunkSz) ds.dsize dst.length items := by
      rw [← f1]
      constructor
      · intro h g hg
        have : g ∈ (chunkBy L).flatten := by rw [hflat]; exact hperm.mem_iff.1 hg
        obtain ⟨grp, h1, h2⟩ := List.mem_flatten.1 this
        exact (hgrp grp h1).1.1 (h grp h1) g h2
      · intro h grp h1
        exact (hgrp grp h1).1.2 fun g hg => h g (hperm.mem_iff.2
          (by rw [← hflat]; exact List.mem_flatten.2 ⟨_, h1, hg⟩))
    cases hrun with
    | done ws hok hws =>
      have hfa := hall.1 fun grp hg => hok _ (List.mem_map.2 ⟨grp, hg, rfl⟩)
      refine ⟨fun _ _ => hfa, fun _ => ?_⟩
      simp only [ok_bind]
      rw [fine_writes hW hst hgs hfa]
      refine hws.trans ?_
      have : (((chunkBy L).map (parGroup .release io ds chunkSz dst.length)).flatMap Prod.snd) =
          L.map (wrN (rawD .release io file ds chunkSz) ds.dsize) := by
        rw [List.flatMap_map]
        conv => rhs; rw [← hflat, List.map_flatten]
        rw [List.flatMap_def]
        congr 1
        apply List.map_congr_left
        intro grp hg
        exact (hgrp grp hg).2 (hall.2 hfa grp hg)
      rw [this]
      exact hperm.symm.map _
    | failed r' hr' hne ws rest hws =>
      obtain ⟨grp, hg, rfl⟩ := List.mem_map.1 hr'
      refine ⟨fun n h => ?_, fun h => absurd (hall.2 h grp hg) hne⟩
      obtain ⟨u, hu, -⟩ := bind_eq_ok.1 h
      exact absurd hu hne
    | race i j hij ri rj hi hj a b ha hb ho =>
      refine ⟨fun n h => by simp at h, fun hfa => ?_⟩
      exfalso
      rw [List.getElem?_map] at hi hj
      obtain ⟨gi, hgi, rfl⟩ := Option.map_eq_some_iff.1 hi
      obtain ⟨gj, hgj, rfl⟩ := Option.map_eq_some_iff.1 hj
      have mi := List.mem_of_getElem? hgi
      have mj := List.mem_of_getElem? hgj
      rw [(hgrp gi mi).2 (hall.2 hfa gi mi)] at ha
      rw [(hgrp gj mj).2 (hall.2 hfa gj mj)] at hb
      obtain ⟨x, hx, rfl⟩ := List.mem_map.1 ha
      obtain ⟨y, hy, rfl⟩ := List.mem_map.1 hb
      have hpw := hperm.pairwise (fine_disjoint (D := rawD .release io file ds chunkSz) (dsz := ds.dsize)
        hW hst hgs hfa) (fun h => h.symm)
      rw [← hflat] at hpw
      exact pairwise_flatten_ne (R := fun a b => Disj (wrN (rawD .release io file ds chunkSz) ds.dsize a)
        (wrN (rawD .release io file ds chunkSz) ds.dsize b)) (fun _ _ h => h.symm) hpw hij hgi hgj
        hx hy ho

end Hidefix.Proofs
