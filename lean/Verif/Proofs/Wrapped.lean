import Verif.Proofs.Direct
import Verif.Proofs.Reads
import Mathlib.Data.Nat.ModEq

/-!
# Release builds, whatever the slices

Nothing is assumed about the slices here: positions may have wrapped. A read that succeeds has checked
every copy, and then the copies are found to lie next to each other.
-/

set_option autoImplicit false

namespace Hidefix.Proofs
open Hidefix Hidefix.Spec Outcome

theorem add64_lt {p : Profile} {a b c : Nat} (h : add64 p a b = ok c) : c < W := by
  unfold add64 at h
  split at h
  · obtain rfl := Outcome.ok.inj h; assumption
  · cases p with
    | debug => simp at h
    | release => obtain rfl := Outcome.ok.inj h; exact Nat.mod_lt _ W_pos

theorem chunkStart_lt {p : Profile} {xs os ss : List Nat} {acc r : Nat} (ha : acc < W)
    (h : chunkStartAux p acc xs os ss = ok r) : r < W := by
  induction xs generalizing acc os ss with
  | nil => unfold chunkStartAux at h; obtain rfl := Outcome.ok.inj h; exact ha
  | cons x xs ih =>
    cases os with
    | nil => unfold chunkStartAux at h; obtain rfl := Outcome.ok.inj h; exact ha
    | cons o os =>
      cases ss with
      | nil => unfold chunkStartAux at h; obtain rfl := Outcome.ok.inj h; exact ha
      | cons s ss =>
        unfold chunkStartAux at h
        obtain ⟨_, -, h⟩ := bind_eq_ok.1 h
        obtain ⟨_, -, h⟩ := bind_eq_ok.1 h
        obtain ⟨_, h3, h⟩ := bind_eq_ok.1 h
        exact ih (add64_lt h3) h

theorem next_start_lt {p : Profile} {ds : Dataset} {s s' : Slicer} {it : Item}
    (h : s.next p ds = ok (some (it, s'))) : it.start < W := by
  unfold Slicer.next at h
  split at h
  · simp at h
  · split at h
    · obtain ⟨_, -, h⟩ := bind_eq_ok.1 h
      obtain ⟨_, -, h⟩ := bind_eq_ok.1 h
      obtain ⟨_, -, h⟩ := bind_eq_ok.1 h
      obtain ⟨rfl, -⟩ := Prod.mk.inj (Option.some.inj (Outcome.ok.inj h))
      exact W_pos
    · cases p with
      | debug =>
        obtain ⟨_, -, h⟩ := bind_eq_ok.1 h
        obtain ⟨_, -, h⟩ := bind_eq_ok.1 h
        obtain ⟨_, -, h⟩ := bind_eq_ok.1 h
        obtain ⟨_, -, h⟩ := bind_eq_ok.1 h
        obtain ⟨cst, hc, h⟩ := bind_eq_ok.1 h
        obtain ⟨_, -, h⟩ := bind_eq_ok.1 h
        obtain ⟨_, -, h⟩ := bind_eq_ok.1 h
        obtain ⟨_, -, h⟩ := bind_eq_ok.1 h
        obtain ⟨_, -, h⟩ := bind_eq_ok.1 h
        obtain ⟨_, -, h⟩ := bind_eq_ok.1 h
        obtain ⟨rfl, -⟩ := Prod.mk.inj (Option.some.inj (Outcome.ok.inj h))
        exact chunkStart_lt W_pos hc
      | release =>
        obtain ⟨_, -, h⟩ := bind_eq_ok.1 h
        obtain ⟨_, -, h⟩ := bind_eq_ok.1 h
        obtain ⟨_, -, h⟩ := bind_eq_ok.1 h
        obtain ⟨cst, hc, h⟩ := bind_eq_ok.1 h
        obtain ⟨_, -, h⟩ := bind_eq_ok.1 h
        obtain ⟨_, -, h⟩ := bind_eq_ok.1 h
        obtain ⟨_, -, h⟩ := bind_eq_ok.1 h
        obtain ⟨rfl, -⟩ := Prod.mk.inj (Option.some.inj (Outcome.ok.inj h))
        exact chunkStart_lt W_pos hc

theorem trace_start_lt {p : Profile} {ds : Dataset} (fuel : Nat) (s : Slicer) :
    ∀ it ∈ (Slicer.trace p ds fuel s).items, it.start < W := by
  induction fuel generalizing s with
  | zero => simp [Slicer.trace]
  | succ fuel ih =>
    intro it hit
    simp only [Slicer.trace] at hit
    split at hit
    · simp at hit
    · rename_i it' s' hn
      simp only [List.mem_cons] at hit
      rcases hit with rfl | hit
      · exact next_start_lt hn
      · exact ih _ it hit
    all_goals simp at hit

theorem chunkSlices_start_lt {p : Profile} {ds : Dataset} {ext : Extents} {t : Trace Item}
    (h : ds.chunkSlices p ext = ok t) : ∀ it ∈ t.items, it.start < W := by
  unfold Dataset.chunkSlices at h
  obtain ⟨s, -, h⟩ := bind_eq_ok.1 h
  obtain rfl := Outcome.ok.inj h
  exact trace_start_lt _ _

/-- A slice in bytes, as release builds compute it. -/
def normI (dsz : Nat) (it : Item) : Item := ⟨it.chunk, it.start * dsz % W, it.stop * dsz % W⟩

/-- A placed slice in bytes, as release builds compute it. -/
def norm (dsz : Nat) (g : GItem) : GItem :=
  ⟨g.chunk, g.current * dsz % W, g.start * dsz % W, g.stop * dsz % W⟩

/-- The copy of a placed slice is in range on both sides. -/
def Fine (D : Chunk → Outcome (List Byte)) (dsz n : Nat) (g : GItem) : Prop :=
  Tame 1 n (norm dsz g) ∧ Ready D 1 g.chunk (norm dsz g).stop

/-- The write of a placed slice. -/
def wrN (D : Chunk → Outcome (List Byte)) (dsz : Nat) (g : GItem) : Write := wr D 1 (norm dsz g)

/-- The bytes of a slice. -/
def bytesN (D : Chunk → Outcome (List Byte)) (dsz : Nat) (it : Item) : List Byte :=
  bytesOf D 1 (normI dsz it)

/-- The copies of all slices, one after the other, are in range on both sides. -/
def FineAll (D : Chunk → Outcome (List Byte)) (dsz n : Nat) (items : List Item) : Prop :=
  (∀ it ∈ items.map (normI dsz), it.start ≤ it.stop ∧ Ready D 1 it.chunk it.stop) ∧
    total (items.map (normI dsz)) ≤ n

theorem mod_mod_W (x : Nat) : x % W * 1 % W = x % W := by
  rw [Nat.mul_one, Nat.mod_mod]

theorem pureStep_norm (D : Chunk → Outcome (List Byte)) (dsz : Nat) (dst : List Byte) (g : GItem) :
    pureStep .release D dsz dst g = pureStep .release D 1 dst (norm dsz g) := by
  unfold pureStep
  simp only [mul64_release, norm, mod_mod_W, ok_bind]

/-- The raw copy: what its success means. -/
theorem copy_release {v dst d' : List Byte} {cur a b : Nat} (hb : b < W)
    (hd : dst.length < W) (h : (do
      let sz ← sub64 .release b a
      let hi ← add64 .release cur sz
      let src ← sliceOf v a b
      copyTo dst cur hi src) = ok d') :
    a ≤ b ∧ b ≤ v.length ∧ cur + (b - a) ≤ dst.length := by
  obtain ⟨sz, h1, h⟩ := bind_eq_ok.1 h
  obtain ⟨hi, h2, h⟩ := bind_eq_ok.1 h
  obtain ⟨src, h3, h⟩ := bind_eq_ok.1 h
  unfold sliceOf at h3
  split at h3
  · rename_i hab
    rw [sub64_of_le hab.1] at h1
    obtain rfl := Outcome.ok.inj h1
    obtain rfl := Outcome.ok.inj h3
    rw [add64_release] at h2
    obtain rfl := Outcome.ok.inj h2
    unfold copyTo at h
    split at h
    · rename_i hc
      refine ⟨hab.1, hab.2, ?_⟩
      rw [List.length_take, List.length_drop] at hc
      obtain ⟨c1, c2, c3⟩ := hc
      by_cases hw : cur + (b - a) < W
      · rw [Nat.mod_eq_of_lt hw] at c2; exact c2
      · have : cur < W := Nat.lt_of_le_of_lt c1 (Nat.lt_of_le_of_lt c2 hd)
        have e : (cur + (b - a)) % W = cur + (b - a) - W := by
          rw [Nat.mod_eq_sub_mod (by omega), Nat.mod_eq_of_lt (by omega)]
        rw [e] at c1
        omega
    · simp at h
  · simp at h3

theorem pureStep_release {D : Chunk → Outcome (List Byte)} {dsz : Nat} {dst dst' : List Byte}
    {g : GItem} (hW : dst.length < W) :
    pureStep .release D dsz dst g = ok dst' ↔
      Fine D dsz dst.length g ∧ dst' = blit dst (wrN D dsz g).off (wrN D dsz g).bytes := by
  rw [pureStep_norm]
  constructor
  · intro h
    have ht : Tame 1 dst.length (norm dsz g) := by
      have h' := h
      unfold pureStep at h'
      obtain ⟨v, -, h'⟩ := bind_eq_ok.1 h'
      simp only [mul64_release, norm, mod_mod_W, ok_bind] at h'
      have hm : ∀ x, x % W < W := fun x => Nat.mod_lt _ W_pos
      obtain ⟨q1, -, q3⟩ := copy_release (hm _) hW h'
      exact ⟨q1, by rw [Nat.mul_one]; exact hm _, by rw [Nat.mul_one]; exact q3⟩
    obtain ⟨h1, h2⟩ := (pureStep_iff ht (Nat.le_refl _) hW).1 h
    exact ⟨⟨ht, h1⟩, h2⟩
  · rintro ⟨⟨ht, hr⟩, hd⟩
    exact (pureStep_iff ht (Nat.le_refl _) hW).2 ⟨hr, hd⟩

theorem wrN_inRange {D : Chunk → Outcome (List Byte)} {dsz n : Nat} {g : GItem}
    (h : Fine D dsz n g) : InRange n (wrN D dsz g) := wr_inRange h.1

theorem pureFold_release {D : Chunk → Outcome (List Byte)} {dsz : Nat} {gs : List GItem}
    {dst dst' : List Byte} (hW : dst.length < W) :
    gs.foldlM (pureStep .release D dsz) dst = ok dst' ↔
      (∀ g ∈ gs, Fine D dsz dst.length g) ∧ dst' = applyWrites dst (gs.map (wrN D dsz)) := by
  induction gs generalizing dst with
  | nil => simp [applyWrites, eq_comm]
  | cons g gs ih =>
    rw [List.foldlM_cons, bind_eq_ok]
    simp only [pureStep_release hW]
    constructor
    · rintro ⟨_, ⟨h1, rfl⟩, h2⟩
      have hlen : (blit dst (wrN D dsz g).off (wrN D dsz g).bytes).length = dst.length :=
        blit_length (wrN_inRange h1)
      rw [ih (by rw [hlen]; exact hW), hlen] at h2
      exact ⟨by simpa using ⟨h1, h2.1⟩, h2.2⟩
    · rintro ⟨h1, h2⟩
      simp only [List.mem_cons, forall_eq_or_imp] at h1
      have hlen : (blit dst (wrN D dsz g).off (wrN D dsz g).bytes).length = dst.length :=
        blit_length (wrN_inRange h1.1)
      refine ⟨_, ⟨h1.1, rfl⟩, ?_⟩
      rw [ih (by rw [hlen]; exact hW), hlen]
      exact ⟨h1.2, h2⟩

theorem groupScan_release (off : Nat) (items : List Item) :
    ∃ gs, groupScan .release off items = ok gs := by
  induction items generalizing off with
  | nil => exact ⟨[], rfl⟩
  | cons it its ih =>
    unfold groupScan
    have : ∃ d, sub64 .release it.stop it.start = ok d := by
      unfold sub64; split <;> exact ⟨_, rfl⟩
    obtain ⟨d, hd⟩ := this
    obtain ⟨gs, hgs⟩ := ih ((off + d) % W)
    exact ⟨_, by rw [hd, ok_bind, add64_release, ok_bind, hgs, ok_bind]⟩

/-- Positions advance by the number of bytes of the slice. -/
theorem advance {off a b d dsz : Nat} (ha : a < W) (hd : sub64 .release b a = ok d)
    (hle : a * dsz % W ≤ b * dsz % W)
    (hlt : off * dsz % W + (b * dsz % W - a * dsz % W) < W) :
    (off + d) % W * dsz % W = off * dsz % W + (b * dsz % W - a * dsz % W) := by
  have hd' : (d + a) % W = b % W := by
    unfold sub64 at hd
    split at hd
    · obtain rfl := Outcome.ok.inj hd
      congr 1; omega
    · obtain rfl := Outcome.ok.inj hd
      rw [Nat.mod_add_mod, show b + W - a + a = b + W by omega, Nat.add_mod_right]
  have h1 : (d * dsz + a * dsz) % W = b * dsz % W := by
    rw [← Nat.add_mul, Nat.mul_mod, hd', ← Nat.mul_mod]
  have h2 : (off + d) % W * dsz % W = (off * dsz + d * dsz) % W := by
    rw [Nat.mod_mul_mod, Nat.add_mul]
  rw [h2]
  -- modulo W, add a * dsz to both sides
  have h3 : (off * dsz + d * dsz + a * dsz) % W =
      (off * dsz % W + (b * dsz % W - a * dsz % W) + a * dsz) % W := by
    rw [Nat.add_assoc, Nat.add_mod, h1]
    conv => rhs; rw [Nat.add_mod]
    have e : off * dsz % W + (b * dsz % W - a * dsz % W) + a * dsz % W = off * dsz % W + b * dsz % W := by
      omega
    rw [Nat.mod_eq_of_lt hlt, e]
  have h4 : Nat.ModEq W (off * dsz + d * dsz) (off * dsz % W + (b * dsz % W - a * dsz % W)) :=
    Nat.ModEq.add_right_cancel' (a * dsz) h3
  unfold Nat.ModEq at h4
  rw [h4, Nat.mod_eq_of_lt hlt]

/-- The placed slices are in range exactly if the slices laid one after the other are; then that is
what they are. -/
theorem groupScan_fine {D : Chunk → Outcome (List Byte)} {dsz n : Nat} (hn : n < W) :
    ∀ (items : List Item) (off : Nat) (gs : List GItem), (∀ it ∈ items, it.start < W) →
      off * dsz % W ≤ n → groupScan .release off items = ok gs →
      ((∀ g ∈ gs, Fine D dsz n g) ↔
        (∀ it ∈ items.map (normI dsz), it.start ≤ it.stop ∧ Ready D 1 it.chunk it.stop) ∧
          off * dsz % W + total (items.map (normI dsz)) ≤ n) ∧
      ((∀ g ∈ gs, Fine D dsz n g) →
        gs.map (norm dsz) = tile (off * dsz % W) (items.map (normI dsz))) := by
  intro items
  induction items with
  | nil =>
    intro off gs _ ho h
    obtain rfl := Outcome.ok.inj h
    simp [total, tile, ho]
  | cons it its ih =>
    intro off gs hst ho h
    unfold groupScan at h
    obtain ⟨d, hd, h⟩ := bind_eq_ok.1 h
    rw [add64_release, ok_bind] at h
    obtain ⟨gs', h2, h⟩ := bind_eq_ok.1 h
    obtain rfl := Outcome.ok.inj h
    have hbase := hst it (by simp)
    have hstep : it.start * dsz % W ≤ it.stop * dsz % W →
        off * dsz % W + (it.stop * dsz % W - it.start * dsz % W) ≤ n →
        (off + d) % W * dsz % W = off * dsz % W + (it.stop * dsz % W - it.start * dsz % W) :=
      fun h1 h2 => advance hbase hd h1 (Nat.lt_of_le_of_lt h2 hn)
    have hF : Fine D dsz n ⟨it.chunk, off, it.start, it.stop⟩ ↔
        it.start * dsz % W ≤ it.stop * dsz % W ∧
        off * dsz % W + (it.stop * dsz % W - it.start * dsz % W) ≤ n ∧
        Ready D 1 it.chunk (it.stop * dsz % W) := by
      unfold Fine norm
      constructor
      · rintro ⟨⟨a, -, b⟩, c⟩
        exact ⟨a, by simpa using b, c⟩
      · rintro ⟨a, b, c⟩
        exact ⟨⟨a, by simpa using Nat.mod_lt _ W_pos, by simpa using b⟩, c⟩
    have key := fun ho' => ih ((off + d) % W) gs' (fun x hx => hst x (by simp [hx])) ho' h2
    rw [List.map_cons, total_cons]
    simp only [List.mem_cons, forall_eq_or_imp, hF]
    simp only [normI]
    constructor
    · constructor
      · rintro ⟨⟨a, b, c⟩, hr⟩
        rw [hstep a b] at key
        obtain ⟨k1, -⟩ := key b
        obtain ⟨k2, k3⟩ := k1.1 hr
        refine ⟨⟨⟨a, c⟩, k2⟩, ?_⟩
        omega
      · rintro ⟨⟨⟨a, c⟩, hr⟩, ht⟩
        have b : off * dsz % W + (it.stop * dsz % W - it.start * dsz % W) ≤ n := by omega
        rw [hstep a b] at key
        refine ⟨⟨a, b, c⟩, (key b).1.2 ⟨hr, ?_⟩⟩
        omega
    · rintro ⟨⟨a, b, c⟩, hr⟩
      rw [hstep a b] at key
      have := (key b).2 hr
      rw [List.map_cons, this]
      rfl

/-- The groups of slices in a release build. -/
theorem groupUnsorted_release {ds : Dataset} {ext : Extents} {items : List Item}
    (h : ds.chunkSlices .release ext = ok ⟨items, ok ()⟩) :
    ∃ gs, ds.groupUnsorted .release ext = ok gs ∧ groupScan .release 0 items = ok gs := by
  obtain ⟨gs, hgs⟩ := groupScan_release 0 items
  refine ⟨gs, ?_, hgs⟩
  unfold Dataset.groupUnsorted
  rw [h, ok_bind]
  dsimp only
  rw [hgs]
  rfl

theorem fine_iff {D : Chunk → Outcome (List Byte)} {dsz n : Nat} {items : List Item}
    {gs : List GItem} (hn : n < W) (hst : ∀ it ∈ items, it.start < W)
    (hgs : groupScan .release 0 items = ok gs) :
    ((∀ g ∈ gs, Fine D dsz n g) ↔ FineAll D dsz n items) ∧
    (FineAll D dsz n items → gs.map (norm dsz) = tile 0 (items.map (normI dsz))) := by
  obtain ⟨h1, h2⟩ := groupScan_fine (D := D) (dsz := dsz) hn items 0 gs hst (by simp) hgs
  simp only [Nat.zero_mul, Nat.zero_mod, Nat.zero_add] at h1 h2
  exact ⟨h1, fun h => h2 (h1.2 h)⟩

/-- In any order the copies write the same block. -/
theorem fine_writes {D : Chunk → Outcome (List Byte)} {dsz : Nat} {items : List Item}
    {gs : List GItem} {dst : List Byte} {ws : List Write} (hn : dst.length < W)
    (hst : ∀ it ∈ items, it.start < W) (hgs : groupScan .release 0 items = ok gs)
    (hf : FineAll D dsz dst.length items) (hp : ws.Perm (gs.map (wrN D dsz))) :
    applyWrites dst ws = blit dst 0 (items.flatMap (bytesN D dsz)) := by
  obtain ⟨h1, h2⟩ := fine_iff (D := D) (dsz := dsz) hn hst hgs
  have hm : gs.map (wrN D dsz) = (tile 0 (items.map (normI dsz))).map (wr D 1) := by
    rw [← h2 hf, List.map_map]; rfl
  have hr : ∀ w ∈ gs.map (wrN D dsz), InRange dst.length w := by
    intro w hw
    obtain ⟨g, hg, rfl⟩ := List.mem_map.1 hw
    exact wrN_inRange (h1.2 hf g hg)
  have hd : (gs.map (wrN D dsz)).Pairwise Disj := by
    rw [hm, List.pairwise_map]
    exact (tile_ordered _ 0).imp wr_disj
  rw [← applyWrites_perm hp.symm hr hd, hm,
    (applyWrites_tile (fun it hit => (hf.1 it hit).1) (fun it hit => (hf.1 it hit).2)
      (by rw [Nat.zero_add, Nat.mul_one]; exact hf.2)).1, Nat.zero_mul, List.flatMap_map]
  rfl

theorem fine_disjoint {D : Chunk → Outcome (List Byte)} {dsz n : Nat} {items : List Item}
    {gs : List GItem} (hn : n < W) (hst : ∀ it ∈ items, it.start < W)
    (hgs : groupScan .release 0 items = ok gs) (hf : FineAll D dsz n items) :
    gs.Pairwise fun a b => Disj (wrN D dsz a) (wrN D dsz b) := by
  have h2 := (fine_iff (D := D) (dsz := dsz) hn hst hgs).2 hf
  have : ((gs.map (norm dsz))).Pairwise fun a b => Disj (wr D 1 a) (wr D 1 b) := by
    rw [h2]; exact (tile_ordered _ 0).imp wr_disj
  rw [List.pairwise_map] at this
  exact this

theorem groupScan_chunk {p : Profile} : ∀ (items : List Item) (off : Nat) (gs : List GItem),
    groupScan p off items = ok gs → ∀ g ∈ gs, ∃ it ∈ items, it.chunk = g.chunk := by
  intro items
  induction items with
  | nil => intro off gs h g hg; obtain rfl := Outcome.ok.inj h; simp at hg
  | cons it its ih =>
    intro off gs h g hg
    unfold groupScan at h
    obtain ⟨_, -, h⟩ := bind_eq_ok.1 h
    obtain ⟨_, -, h⟩ := bind_eq_ok.1 h
    obtain ⟨gs', h2, h⟩ := bind_eq_ok.1 h
    obtain rfl := Outcome.ok.inj h
    rcases List.mem_cons.1 hg with rfl | hg
    · exact ⟨it, by simp, rfl⟩
    · obtain ⟨x, hx, e⟩ := ih _ _ h2 g hg
      exact ⟨x, by simp [hx], e⟩

theorem groupScan_mem {p : Profile} {ds : Dataset} {ext : Extents} {t : Trace Item} {gs : List GItem}
    (hs : ds.chunkSlices p ext = ok t) (hgs : groupScan p 0 t.items = ok gs) :
    ∀ g ∈ gs, g.chunk ∈ ds.chunks := by
  intro g hg
  obtain ⟨it, hit, e⟩ := groupScan_chunk _ _ _ hgs g hg
  rw [← e]
  exact chunkSlices_mem hs it hit

/-! ## `Direct::read_to` -/

theorem directReadTo_release {io : Io} {file : List Byte} {ds : Dataset} {chunkSz : Nat}
    {sort : List GItem → List GItem} {ext : Extents} {items : List Item} {vsz : Nat} {dst : List Byte}
    (hdet : AddrDet ds) (hsort : ∀ l : List GItem, l.Perm (sort l))
    (hc : chunkBytes .release ds = ok chunkSz) (hf : io.file = some file)
    (hs : ds.chunkSlices .release ext = ok ⟨items, ok ()⟩) (hv : reqBytes .release ds ext = ok vsz)
    (hn : vsz ≤ dst.length) (hW : dst.length < W) :
    (∀ n, (directReadTo .release io ds sort ext dst).1 = ok n ↔
      n = vsz ∧ FineAll (rawD .release io file ds chunkSz) ds.dsize dst.length items) ∧
    (FineAll (rawD .release io file ds chunkSz) ds.dsize dst.length items →
      directReadTo .release io ds sort ext dst =
        (ok vsz, blit dst 0 (items.flatMap (bytesN (rawD .release io file ds chunkSz) ds.dsize)))) := by
  obtain ⟨gs, hgu, hgs⟩ := groupUnsorted_release hs
  have hst := chunkSlices_start_lt hs
  have hp := hsort gs
  obtain ⟨f1, -⟩ := fine_iff (D := rawD .release io file ds chunkSz) (dsz := ds.dsize) hW hst hgs
  have hmem : ∀ g ∈ gs, g.chunk ∈ ds.chunks := groupScan_mem hs hgs
  have hfold := fun d' => pureFold_release (D := rawD .release io file ds chunkSz) (dsz := ds.dsize)
    (dst := dst) (dst' := d') (gs := sort gs) hW
  obtain ⟨s1, s2, -⟩ := loop_sim (directStep .release io file ds chunkSz)
    (pureStep .release (rawD .release io file ds chunkSz) ds.dsize) DirectSt.dst
    (LastInv ds (rawD .release io file ds chunkSz)) (sort gs)
    (fun s g hg hinv => directStep_sim hdet (hmem _ (hp.mem_iff.2 hg)) hinv)
    ⟨none, dst⟩ (by intro a v hv; simp at hv)
  have hall : (∀ g ∈ sort gs, Fine (rawD .release io file ds chunkSz) ds.dsize dst.length g) ↔
      FineAll (rawD .release io file ds chunkSz) ds.dsize dst.length items := by
    rw [← f1]
    exact ⟨fun hh g hg => hh g (hp.mem_iff.1 hg), fun hh g hg => hh g (hp.mem_iff.2 hg)⟩
  have hgr : ds.groupChunkSlices .release ext sort = ok (sort gs) := by
    unfold Dataset.groupChunkSlices
    rw [hgu, ok_bind]
  unfold directReadTo
  rw [hc, ok_bind, hv, ok_bind, show decide (vsz ≤ dst.length) = true by simpa using hn,
    ensure_true, ok_bind, hgr, ok_bind, hf]
  simp only [s1]
  simp only at s2
  rw [s2]
  refine ⟨fun n => ⟨fun ho => ?_, ?_⟩, fun hr => ?_⟩
  · obtain ⟨_, h1, h2⟩ := bind_eq_ok.1 ho
    have := (hfold _).1 (loop_fst_ok h1)
    exact ⟨(Outcome.ok.inj h2).symm, hall.1 this.1⟩
  · rintro ⟨rfl, hr⟩
    rw [loop_ok_iff.2 ((hfold _).2 ⟨hall.2 hr, rfl⟩)]
    rfl
  · rw [loop_ok_iff.2 ((hfold _).2 ⟨hall.2 hr, rfl⟩)]
    simp only [ok_bind]
    rw [fine_writes hW hst hgs hr (hp.symm.map _)]

end Hidefix.Proofs
