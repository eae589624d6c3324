import Verif.Spec.Filled
import Verif.Props.Ends
import Verif.Props.Reading
import Verif.Proofs.WrappedPar
import Verif.Props.Snug
import Verif.Props.Python

/-!
# Property C92: a successful read filled the destination, even where it is a misread
-/

set_option autoImplicit false

namespace Hidefix.Props
open Hidefix Hidefix.Spec Hidefix.Proofs Outcome

/-- A scalar, a debug build: the read is checked. -/
theorem _root_.Hidefix.Spec.Tried.checked {p : Profile} {ds : Dataset} {ext : Extents} {start count : List Nat}
    (h : Tried p ds ext start count) (hp : p = .debug ∨ ds.shape = []) : Checked p ds ext := by
  have hW : W = 2 ^ 64 := by decide
  rcases hp with rfl | hs
  · exact .inl rfl
  refine .inr ⟨start, count, h.sel, .inl ⟨h.wf, h.inside, ?_, ?_, ?_⟩⟩
  · obtain ⟨hS, -, -⟩ := sel_of h.wf h.inside
    have : dimsOf start count ds.chunkShape ds.shape = [] := by
      have := hS.shp
      rw [hs] at this ⊢
      simpa using this.symm
    unfold Good
    rw [this]
    rfl
  all_goals
    have := h.size 1 (by simp)
    rw [Nat.add_mul, Nat.one_mul] at this
    omega

/-- The slices of a release build, in bytes: none is empty, and together they are at least as long as the selection. -/
theorem _root_.Hidefix.Spec.Tried.slices {ds : Dataset} {ext : Extents} {start count : List Nat}
    (h : Tried .release ds ext start count) (hs : ds.shape ≠ []) :
    ∃ items, ds.chunkSlices .release ext = ok ⟨items, ok ()⟩ ∧ (∀ it ∈ items, it.chunk ∈ ds.chunks) ∧
      count.prod * ds.dsize ≤ total (items.map (normI ds.dsize)) := by
  have hW : W = 2 ^ 64 := by decide
  have h61 : (2 : Nat) ^ 61 = 2305843009213693952 := by decide
  have h62 : (2 : Nat) ^ 62 = 4611686018427387904 := by decide
  have h63 : (2 : Nat) ^ 63 = 9223372036854775808 := by decide
  have h64 : (2 : Nat) ^ 64 = 18446744073709551616 := by decide
  have hle : ∀ n ∈ 1 :: ds.shape, count.prod + n * ds.chunkShape.prod ≤ 2 ^ 61 / ds.dsize := fun n hn =>
    (Nat.le_div_iff_mul_le h.elem).2 (Nat.le_of_lt (h.size n hn))
  have hB : 2 ^ 61 / ds.dsize ≤ 2 ^ 61 := Nat.div_le_self _ _
  have hsmall : ∀ n ∈ ds.shape, count.prod + n * ds.chunkShape.prod < 2 ^ 62 := fun n hn => by
    have := hle n (List.mem_cons_of_mem _ hn)
    omega
  obtain ⟨items, h1, -, h3, h4⟩ := slices_ends h.wf h.sel h.inside h.loose hsmall
  have hr := slices_room h.wf h.sel h.inside hs (B := 2 ^ 61 / ds.dsize + 1) (by omega)
    (fun n hn => Nat.lt_succ_of_le (hle n (List.mem_cons_of_mem _ hn))) h1
  refine ⟨items, h1, chunkSlices_mem h1, ?_⟩
  have hC : ds.chunkShape.prod * ds.dsize < 2 ^ 61 := by
    have := h.size 1 (by simp)
    rw [Nat.add_mul, Nat.one_mul] at this
    omega
  have hN : ∀ it ∈ items, (normI ds.dsize it).stop - (normI ds.dsize it).start = (it.stop - it.start) * ds.dsize := by
    intro it hit
    obtain ⟨r1, r2⟩ := hr it hit
    obtain ⟨g1, g2⟩ := h3 it hit
    have r3 : it.stop < it.start + (2 ^ 61 / ds.dsize + 1) := by
      rcases r2 g1 with r | ⟨r, -⟩
      · exact r
      · omega
    have e1 : it.stop * ds.dsize ≤ it.start * ds.dsize + 2 ^ 61 := by
      have a := Nat.mul_le_mul_right ds.dsize (show it.stop ≤ it.start + 2 ^ 61 / ds.dsize by omega)
      have b := Nat.div_mul_le_self (2 ^ 61) ds.dsize
      rw [Nat.add_mul] at a
      omega
    have e2 := Nat.mul_le_mul_right ds.dsize (Nat.le_of_lt r1)
    have e3 := Nat.mul_le_mul_right ds.dsize (Nat.le_of_lt g1)
    unfold normI
    simp only
    rw [Nat.mod_eq_of_lt (by omega), Nat.mod_eq_of_lt (by omega), Nat.sub_mul]
  have hT : total (items.map (normI ds.dsize)) = total items * ds.dsize := by
    clear h1 h3 h4 hr
    induction items with
    | nil => simp [total]
    | cons it its ih =>
      rw [List.map_cons, total_cons, total_cons, Nat.add_mul, ih fun x hx => hN x (by simp [hx]),
        hN it (by simp)]
  rw [hT]
  exact Nat.mul_le_mul_right _ h4

/-- The bytes that the copies of a release build write. -/
theorem fine_bytes {D : Chunk → Outcome (List Byte)} {ds : Dataset} {items : List Item}
    (hm : ∀ it ∈ items, it.chunk ∈ ds.chunks)
    (h : ∀ it ∈ items.map (normI ds.dsize), it.start ≤ it.stop ∧ Ready D 1 it.chunk it.stop) :
    FromChunks D ds (items.flatMap (bytesN D ds.dsize)) ∧
      (items.flatMap (bytesN D ds.dsize)).length = total (items.map (normI ds.dsize)) := by
  induction items with
  | nil => exact ⟨.nil, by simp [total]⟩
  | cons it its ih =>
    obtain ⟨h1, h2⟩ := ih (fun x hx => hm x (by simp [hx])) (fun x hx => h x (by simp_all))
    obtain ⟨g1, g2⟩ := h (normI ds.dsize it) (by simp)
    have hl := bytesN_length g1 g2
    refine ⟨?_, ?_⟩
    · rw [List.flatMap_cons]
      obtain ⟨v, hv, hvl⟩ := g2
      have := FromChunks.piece it.chunk v ((normI ds.dsize it).start) ((normI ds.dsize it).stop) _ (hm it (by simp))
        hv g1 (by rw [Nat.mul_one] at hvl; exact hvl) h1
      have e : bytesN D ds.dsize it = (v.drop (normI ds.dsize it).start).take
          ((normI ds.dsize it).stop - (normI ds.dsize it).start) := by
        unfold bytesN bytesOf part
        rw [show D (normI ds.dsize it).chunk = ok v from hv]
        simp only [Nat.mul_one, valOf]
      rw [e]
      exact this
    · rw [List.flatMap_cons, List.length_append, hl, h2, List.map_cons, total_cons]

/-- Enough for `Fills`: success is a matter of `V` and of room, in every destination. -/
theorem fills_of {D : Chunk → Outcome (List Byte)} {ds : Dataset} {n : Nat}
    {Run : List Byte → Outcome Nat × List Byte → Prop} {bytes : List Byte} (V : Prop)
    (hV : V → FromChunks D ds bytes ∧ n ≤ bytes.length)
    (h : ∀ dst res, dst.length < 2 ^ 63 → Run dst res →
      (∀ m, res.1 = ok m → V ∧ bytes.length ≤ dst.length) ∧
      (V → bytes.length ≤ dst.length → res = (ok n, bytes ++ dst.drop bytes.length))) :
    Fills D ds n Run := by
  by_cases hv : V
  · refine .inl ⟨bytes, (hV hv).1, (hV hv).2, fun dst res hd hr => ⟨(h dst res hd hr).2 hv, fun hl m hm => ?_⟩⟩
    have := ((h dst res hd hr).1 m hm).2
    omega
  · exact .inr fun dst res hd hr m hm => hv ((h dst res hd hr).1 m hm).1

/-- C92 for `Direct`, `read_to` and every schedule of `read_to_par`. -/
theorem C92_direct {p : Profile} {io : Io} {file : List Byte} {ds : Dataset} {ext : Extents}
    {start count : List Nat} {csz : Nat} {sort : List GItem → List GItem} (ht : Tried p ds ext start count)
    (hf : io.file = some file) (hc : chunkBytes p ds = ok csz) (hsort : ∀ l, SortedByAddr l (sort l))
    (hdet : AddrDet ds) :
    Fills (fun c => readChunk p io file c.addr c.size csz ds.dsize ds.gzip.isSome ds.shuffle) ds
      (count.prod * ds.dsize) fun dst res =>
        res = directReadTo p io ds sort ext dst ∨ DirectReadToPar p io ds sort ext dst res := by
  have hperm := fun l => (hsort l).1
  have hW : W = 2 ^ 64 := by decide
  have hv := reqBytes_ok ht.wf ht.sel ht.inside (by
    have := ht.size 1 (by simp)
    rw [Nat.add_mul, Nat.one_mul] at this
    omega)
  by_cases hp : p = .debug ∨ ds.shape = []
  · have hk := ht.checked hp
    by_cases hx : ∃ items, ds.chunkSlices p ext = ok ⟨items, ok ()⟩
    swap
    · refine .inr fun dst res hd hr m hm => hx ?_
      rcases hr with rfl | hr
      · obtain ⟨-, -, h⟩ := directReadTo_inv hm
        exact h
      · obtain ⟨-, -, h⟩ := par_inv hr hm
        exact h
    obtain ⟨items, h1⟩ := hx
    have hS := checked_sliced hk hc hv h1
    obtain ⟨htt, -⟩ := checked_total hk ht.sel ht.inside hv h1
    have hle := fun it hit => Nat.le_of_lt (hS.le it hit)
    refine fills_of (bytes := items.flatMap (bytesOf (rawD p io file ds csz) ds.dsize))
      (∀ it ∈ items, Ready (rawD p io file ds csz) ds.dsize it.chunk it.stop)
      (fun hr => ⟨fromChunks_items hS.mem hle hr, by rw [flatMap_bytesOf_length hle hr, htt]⟩)
      fun dst res hd hr => ?_
    rcases hr with rfl | hr
    · refine ⟨fun m hm => ?_, fun h3 hl => ?_⟩
      · have hn := directReadTo_fits hv hm
        obtain ⟨-, h3⟩ := ((directReadTo_iff hdet hperm hc hf hS hn).1 m).1 hm
        exact ⟨h3, by rw [flatMap_bytesOf_length hle h3, htt]; exact hn⟩
      · rw [flatMap_bytesOf_length hle h3, htt] at hl
        rw [(directReadTo_iff hdet hperm hc hf hS hl).2 h3, blit_zero]
    · refine ⟨fun m hm => ?_, fun h3 hl => ?_⟩
      · have hn := par_fits hv hr hm
        rcases directPar_cases hdet hperm hc hf (safe_rawD _ _ _ _ _) hS hn hr with ⟨h3, -⟩ | ⟨-, h6⟩
        · exact ⟨h3, by rw [flatMap_bytesOf_length hle h3, htt]; exact hn⟩
        · exact absurd hm (h6.1 m)
      · rw [flatMap_bytesOf_length hle h3, htt] at hl
        rcases directPar_cases hdet hperm hc hf (safe_rawD _ _ _ _ _) hS hl hr with ⟨-, h6⟩ | ⟨h6, -⟩
        · rw [h6, blit_zero]
        · exact absurd h3 h6
  obtain ⟨hp, hs⟩ := not_or.1 hp
  obtain rfl : p = .release := by cases p <;> simp_all
  obtain ⟨items, i1, i2, i3⟩ := ht.slices hs
  refine fills_of (bytes := items.flatMap (bytesN (rawD .release io file ds csz) ds.dsize))
    (∀ it ∈ items.map (normI ds.dsize), it.start ≤ it.stop ∧ Ready (rawD .release io file ds csz) 1 it.chunk it.stop)
    (fun h => ⟨(fine_bytes i2 h).1, by rw [(fine_bytes i2 h).2]; exact i3⟩) fun dst res hd hr => ?_
  rcases hr with rfl | hr
  · refine ⟨fun m hm => ?_, fun h3 hl => ?_⟩
    · obtain ⟨-, h1, h2⟩ :=
        ((directReadTo_release hdet hperm hc hf i1 hv (directReadTo_fits hv hm) (by omega)).1 m).1 hm
      exact ⟨h1, by rw [(fine_bytes i2 h1).2]; exact h2⟩
    · have b2 := (fine_bytes i2 h3).2
      rw [(directReadTo_release hdet hperm hc hf i1 hv (by omega) (by omega)).2 ⟨h3, by omega⟩, blit_zero]
  · refine ⟨fun m hm => ?_, fun h3 hl => ?_⟩
    · obtain ⟨-, h1, h2⟩ :=
        ((directPar_release hdet hperm hc hf i1 hv (par_fits hv hr hm) (by omega) hr).1 m).1 hm
      exact ⟨h1, by rw [(fine_bytes i2 h1).2]; exact h2⟩
    · have b2 := (fine_bytes i2 h3).2
      rw [(directPar_release hdet hperm hc hf i1 hv (by omega) (by omega) hr).2 ⟨h3, by omega⟩, blit_zero]

/-- C92 for `CacheReader`, after any earlier reads. -/
theorem C92_cache {p : Profile} {io : Io} {file : List Byte} {ds : Dataset} {ext : Extents}
    {start count : List Nat} {rd : CacheReader} (ht : Tried p ds ext start count) (hdet : AddrDet ds)
    (hrd : CacheReader.withDataset p ds = ok rd) (hist : List (Extents × List Byte)) :
    Fills (fun c => readChunk p io file c.addr c.size rd.chunkSz ds.dsize ds.gzip.isSome ds.shuffle) ds
      (count.prod * ds.dsize) fun dst res =>
        res = (((afterReads p io file ds rd hist).readTo p io file ds ext dst).1,
          ((afterReads p io file ds rd hist).readTo p io file ds ext dst).2.1) := by
  have hW : W = 2 ^ 64 := by decide
  have hread := fun dst => cache_read (io := io) (file := file) hdet hrd hist ext dst
  have hv := reqBytes_ok ht.wf ht.sel ht.inside (by
    have := ht.size 1 (by simp)
    rw [Nat.add_mul, Nat.one_mul] at this
    omega)
  obtain ⟨-, hc, -⟩ := withDataset_inv (io := io) (file := file) hrd
  by_cases hp : p = .debug ∨ ds.shape = []
  · have hk := ht.checked hp
    by_cases hx : ∃ items, ds.chunkSlices p ext = ok ⟨items, ok ()⟩
    swap
    · refine .inr fun dst res hd hr m hm => hx ?_
      subst hr
      rw [(hread dst).1] at hm
      obtain ⟨-, -, h⟩ := nocacheReadTo_inv hm
      exact h
    obtain ⟨items, h1⟩ := hx
    have hS := checked_sliced hk hc hv h1
    obtain ⟨htt, -⟩ := checked_total hk ht.sel ht.inside hv h1
    have hle := fun it hit => Nat.le_of_lt (hS.le it hit)
    refine fills_of (bytes := items.flatMap (bytesOf (rawD p io file ds rd.chunkSz) ds.dsize))
      (∀ it ∈ items, Ready (rawD p io file ds rd.chunkSz) ds.dsize it.chunk it.stop)
      (fun hr => ⟨fromChunks_items hS.mem hle hr, by rw [flatMap_bytesOf_length hle hr, htt]⟩)
      fun dst res hd hr => ?_
    subst hr
    rw [(hread dst).1, (hread dst).2]
    refine ⟨fun m hm => ?_, fun h3 hl => ?_⟩
    · have hn := nocacheReadTo_fits hv hm
      obtain ⟨-, h3⟩ := (nocacheReadTo_iff hS hn m).1 hm
      exact ⟨h3, by rw [flatMap_bytesOf_length hle h3, htt]; exact hn⟩
    · rw [flatMap_bytesOf_length hle h3, htt] at hl
      rw [(nocacheReadTo_iff hS hl _).2 ⟨rfl, h3⟩, nocacheReadTo_dst hS hl h3, blit_zero]
  obtain ⟨hp, hs⟩ := not_or.1 hp
  obtain rfl : p = .release := by cases p <;> simp_all
  obtain ⟨items, i1, i2, i3⟩ := ht.slices hs
  refine fills_of (bytes := items.flatMap (bytesN (rawD .release io file ds rd.chunkSz) ds.dsize))
    (∀ it ∈ items.map (normI ds.dsize), it.start ≤ it.stop ∧
      Ready (rawD .release io file ds rd.chunkSz) 1 it.chunk it.stop)
    (fun h => ⟨(fine_bytes i2 h).1, by rw [(fine_bytes i2 h).2]; exact i3⟩) fun dst res hd hr => ?_
  subst hr
  rw [(hread dst).1, (hread dst).2]
  refine ⟨fun m hm => ?_, fun h3 hl => ?_⟩
  · obtain ⟨-, h1, h2⟩ := ((nocacheReadTo_release i1 hv (nocacheReadTo_fits hv hm)).1 m).1 hm
    exact ⟨h1, by rw [(fine_bytes i2 h1).2]; exact h2⟩
  · have b2 := (fine_bytes i2 h3).2
    rw [(nocacheReadTo_release (io := io) (file := file) (chunkSz := rd.chunkSz) i1 hv (by omega)).2 ⟨h3, by omega⟩,
      blit_zero]

/-! ## Results that are allocated uninitialised -/

/-- Into a destination of exactly the size of the selection: the same outcome and the same bytes, if ever it succeeds. -/
theorem _root_.Hidefix.Spec.Fills.exact {D : Chunk → Outcome (List Byte)} {ds : Dataset} {n : Nat}
    {Run : List Byte → Outcome Nat × List Byte → Prop} (h : Fills D ds n Run) (hn : n < 2 ^ 63) :
    (∃ bytes, FromChunks D ds bytes ∧ bytes.length = n ∧ ∀ dst res, dst.length = n → Run dst res → res = (ok n, bytes)) ∨
    ∀ dst res, dst.length = n → Run dst res → ∀ m, res.1 ≠ ok m := by
  rcases h with ⟨bytes, h1, h2, h3⟩ | h
  · rcases Nat.lt_or_ge n bytes.length with hl | hl
    · exact .inr fun dst res hd hr => (h3 dst res (by omega) hr).2 (by omega)
    · refine .inl ⟨bytes, h1, by omega, fun dst res hd hr => ?_⟩
      rw [(h3 dst res (by omega) hr).1 (by omega), List.drop_of_length_le (by omega), List.append_nil]
  · exact .inr fun dst res hd hr => h dst res (by omega) hr

theorem valuesTo_of {hst : Host} {t : Prim} {order : ByteOrder} {rd : ByteReader} {ext : Extents} {dst bytes : List Byte}
    {n : Nat} (h : rd ext dst = (ok n, bytes)) :
    valuesTo hst t order rd ext dst = (ok n, toNativeSlice hst t order bytes) := by
  unfold valuesTo
  rw [h]

theorem valuesTo_not {hst : Host} {t : Prim} {order : ByteOrder} {rd : ByteReader} {ext : Extents} {dst : List Byte}
    (h : ∀ n, (rd ext dst).1 ≠ ok n) (n : Nat) : (valuesTo hst t order rd ext dst).1 ≠ ok n := by
  unfold valuesTo
  split
  · rename_i r d e
    rw [e] at h
    exact absurd rfl (h r)
  · exact h n

/-- C92 for `values_dyn_par` and, with the feature `unstable`, `values` and `values_par`: what was in the memory of the
result does not show, whatever the reader's schedule: either no call succeeds, or all return the same pieces of decoded
chunks. -/
theorem C92_values {p : Profile} {hst : Host} {t : Prim} {io : Io} {file : List Byte} {ds : Dataset} {ext : Extents}
    {start count : List Nat} {csz : Nat} {sort : List GItem → List GItem} (ht : Tried p ds ext start count)
    (hf : io.file = some file) (hc : chunkBytes p ds = ok csz) (hsort : ∀ l, SortedByAddr l (sort l))
    (hdet : AddrDet ds) (htz : t.size = ds.dsize) :
    (∃ bytes, FromChunks (fun c => readChunk p io file c.addr c.size csz ds.dsize ds.gzip.isSome ds.shuffle) ds bytes ∧
        bytes.length = count.prod * ds.dsize ∧
        ∀ (rd : ByteReader) (junk : Nat → Byte), (∀ dst, rd ext dst = directReadTo p io ds sort ext dst ∨
            DirectReadToPar p io ds sort ext dst (rd ext dst)) →
          values p hst t ds rd ext = ok (toNativeSlice hst t ds.order bytes) ∧
          valuesUnstable p hst t ds rd ext junk = ok (toNativeSlice hst t ds.order bytes) ∧
          valuesDynPar p hst t ds rd ext junk = ok (count, toNativeSlice hst t ds.order bytes)) ∨
    ∀ (rd : ByteReader) (junk : Nat → Byte), (∀ dst, rd ext dst = directReadTo p io ds sort ext dst ∨
            DirectReadToPar p io ds sort ext dst (rd ext dst)) →
        ∀ out out', values p hst t ds rd ext ≠ ok out ∧ valuesUnstable p hst t ds rd ext junk ≠ ok out ∧
          valuesDynPar p hst t ds rd ext junk ≠ ok out' := by
  have hW : W = 2 ^ 64 := by decide
  have hN : count.prod * ds.dsize < 2 ^ 61 := by
    have := ht.size 1 (by simp)
    rw [Nat.add_mul, Nat.one_mul] at this
    omega
  have hpre : ext.getCounts ds.shape = ok count :=
    (getCounts_of_sized ((selects_iff ext ds.shape start count).2 ht.sel)).1
  have hprod : product64 p count = ok count.prod := by
    have hv := reqBytes_ok ht.wf ht.sel ht.inside (by omega)
    unfold reqBytes at hv
    rw [hpre, ok_bind] at hv
    obtain ⟨hS, e1, e2⟩ := sel_of ht.wf ht.inside
    refine product64_ok p count (mem_count_of_bounds ht.inside) ?_
    have := hS.tot_lt
    rw [show count.prod = tot (dimsOf start count ds.chunkShape ds.shape) by
      conv => lhs; rw [e2]
      rw [List.prod_reverse]; rfl]
    exact this
  have hmul : mul64 p count.prod ds.dsize = ok (count.prod * ds.dsize) := mul64_of_lt (by omega)
  have hdiv : count.prod * ds.dsize / ds.dsize = count.prod := Nat.mul_div_cancel _ ht.elem
  have hmul' : mul64 p ds.dsize count.prod = ok (ds.dsize * count.prod) := mul64_of_lt (by rw [Nat.mul_comm]; omega)
  have hcap : (if count.prod * ds.dsize < 9223372036854775808 then ok (count.prod * ds.dsize) else panic .capacity)
      = (ok (count.prod * ds.dsize) : Outcome Nat) := if_pos (by omega)
  have e1 : ∀ rd : ByteReader, values p hst t ds rd ext =
      ((valuesTo hst t ds.order rd ext (List.replicate (count.prod * ds.dsize) 0)).1 >>= fun _ =>
        ok (valuesTo hst t ds.order rd ext (List.replicate (count.prod * ds.dsize) 0)).2) := by
    intro rd
    unfold values
    rw [hpre, ok_bind, hprod, ok_bind, hmul, ok_bind, htz]
    simp only [hdiv]
    rw [show (ds.dsize % ds.dsize == 0) = true by simp, ensure_true, ok_bind, hmul', ok_bind,
      show (ds.dsize * count.prod % ds.dsize == 0) = true by simp, ensure_true, ok_bind, hcap, ok_bind]
  have e2 : ∀ (rd : ByteReader) (junk : Nat → Byte), valuesUnstable p hst t ds rd ext junk =
      ((valuesTo hst t ds.order rd ext ((List.range (count.prod * ds.dsize)).map junk)).1 >>= fun _ =>
        ok (valuesTo hst t ds.order rd ext ((List.range (count.prod * ds.dsize)).map junk)).2) := by
    intro rd junk
    unfold valuesUnstable
    rw [hpre, ok_bind, hprod, ok_bind, hmul, ok_bind, htz]
    simp only [hdiv]
    rw [show (ds.dsize % ds.dsize == 0) = true by simp, ensure_true, ok_bind, hmul', ok_bind,
      show (ds.dsize * count.prod % ds.dsize == 0) = true by simp, ensure_true, ok_bind, hcap, ok_bind]
  have e3 : ∀ (rd : ByteReader) (junk : Nat → Byte), valuesDynPar p hst t ds rd ext junk =
      ((valuesTo hst t ds.order rd ext ((List.range (count.prod * ds.dsize)).map junk)).1 >>= fun _ =>
        ok (count, (valuesTo hst t ds.order rd ext ((List.range (count.prod * ds.dsize)).map junk)).2)) := by
    intro rd junk
    unfold valuesDynPar
    rw [hpre, ok_bind, hprod, ok_bind, hmul, ok_bind, htz]
    simp only [hdiv]
    rw [show (ds.dsize % ds.dsize == 0) = true by simp, ensure_true, ok_bind, hmul', ok_bind,
      show (ds.dsize * count.prod % ds.dsize == 0) = true by simp, ensure_true, ok_bind, hcap, ok_bind]
  rcases (C92_direct ht hf hc hsort hdet).exact (by omega) with ⟨bytes, h1, h2, h3⟩ | h
  · refine .inl ⟨bytes, h1, h2, fun rd junk hrd => ?_⟩
    have k := fun dst hd => valuesTo_of (hst := hst) (t := t) (order := ds.order) (h3 dst (rd ext dst) hd (hrd dst))
    rw [e1, e2, e3, k _ (by simp), k _ (by simp)]
    exact ⟨rfl, rfl, rfl⟩
  · refine .inr fun rd junk hrd out out' => ?_
    have k := fun dst hd => valuesTo_not (hst := hst) (t := t) (order := ds.order) (h dst (rd ext dst) hd (hrd dst))
    rw [e1, e2, e3]
    refine ⟨fun hx => ?_, fun hx => ?_, fun hx => ?_⟩
    all_goals
      obtain ⟨m, hm, -⟩ := bind_eq_ok.1 hx
      exact k _ (by simp) m hm

/-- C92 for Python: `ds[items]` does not show what was in the memory of the numpy array. -/
theorem C92_python {p : Profile} {hst : Host} {t : Prim} {io : Io} {file : List Byte} {ds : Dataset}
    {items : List PyItem} {ext : Extents} {start count : List Nat} {csz : Nat} {sort : List GItem → List GItem}
    (hsel : pySelect p items ds.shape = ok (start, count)) (hext : Extents.ofStartsCounts start count = ok ext)
    (ht : Tried p ds ext start count) (hty : ds.dtype = numpyType t) 
    (hf : io.file = some file) (hc : chunkBytes p ds = ok csz) (hsort : ∀ l, SortedByAddr l (sort l))
    (hdet : AddrDet ds) :
    (∃ bytes, FromChunks (fun c => readChunk p io file c.addr c.size csz ds.dsize ds.gzip.isSome ds.shuffle) ds bytes ∧
        bytes.length = count.prod * ds.dsize ∧
        ∀ (rd : ByteReader) (junk : Nat → Byte), (∀ dst, DirectReadToPar p io ds sort ext dst (rd ext dst)) →
          pyGetItem p hst ds rd junk items = ok (t, squeezed count, toNativeSlice hst t ds.order bytes)) ∨
    ∀ (rd : ByteReader) (junk : Nat → Byte), (∀ dst, DirectReadToPar p io ds sort ext dst (rd ext dst)) →
      ∀ out, pyGetItem p hst ds rd junk items ≠ ok out := by
  have hN : count.prod * ds.dsize < 2 ^ 61 := by
    have := ht.size 1 (by simp)
    rw [Nat.add_mul, Nat.one_mul] at this
    omega
  have hpos := mem_count_of_bounds ht.inside
  have hpp := pyShape_prod hpos
  have hq := pyShape_squeezed fun c hcc => Nat.pos_iff_ne_zero.1 (hpos c hcc)
  have hprim : pyPrim ds.dtype = ok t := by
    rw [hty]
    cases t <;> rfl
  have htz : t.size = ds.dsize := by
    rw [ht.wf.fields.2.2.2.2]
    exact pyPrim_size hprim
  have e : ∀ (rd : ByteReader) (junk : Nat → Byte), pyGetItem p hst ds rd junk items =
      ((valuesTo hst t ds.order rd ext ((List.range (count.prod * ds.dsize)).map junk)).1 >>= fun _ =>
        ok (t, squeezed count, (valuesTo hst t ds.order rd ext ((List.range (count.prod * ds.dsize)).map junk)).2)) := by
    intro rd junk
    unfold pyGetItem
    rw [hsel, ok_bind]
    simp only
    rw [hprim, ok_bind]
    simp only [hpp, htz]
    rw [if_pos (by omega), ok_bind, hext, ok_bind, hq]
  rcases (C92_direct ht hf hc hsort hdet).exact (by omega) with ⟨bytes, h1, h2, h3⟩ | h
  · refine .inl ⟨bytes, h1, h2, fun rd junk hrd => ?_⟩
    have k := fun dst hd => valuesTo_of (hst := hst) (t := t) (order := ds.order) (h3 dst (rd ext dst) hd (.inr (hrd dst)))
    rw [e, k _ (by simp)]
    rfl
  · refine .inr fun rd junk hrd out hx => ?_
    have k := fun dst hd => valuesTo_not (hst := hst) (t := t) (order := ds.order) (h dst (rd ext dst) hd (.inr (hrd dst)))
    rw [e] at hx
    obtain ⟨m, hm, -⟩ := bind_eq_ok.1 hx
    exact k _ (by simp) m hm

/-! ## Cases -/

/-- `[.., 0..3, ..]` of `fits342` is misread by release builds (`fits342_astray`). -/
theorem fits342_tried (p : Profile) :
    Tried p fits342 (.extent [.slice 0, .sliceCount 0 3, .slice 0]) [0, 0, 0] [3, 3, 2] where
  wf := fits342_wf p
  sel := ⟨rfl, rfl, rfl⟩
  inside := by unfold InBounds; decide
  loose := not_pinned_of (.inl ⟨[2, 2], 2, rfl, by decide⟩) rfl rfl rfl
  elem := by decide
  size := by decide

/-- And such a read succeeds: from a file of the bytes `0..32` the second row of the selection is 4, 5, 6, 7, 12, 13 and
the read gives 10, 11, 12, 13, 14, 15; but nothing of the destination's 18 bytes is left as it was. -/
example : ∃ rd, CacheReader.withDataset .release fits342 = ok rd ∧
    (rd.readTo .release ⟨none, fun _ => none⟩ ((List.range 32).map fun i => UInt8.ofNat i) fits342
      (.extent [.slice 0, .sliceCount 0 3, .slice 0]) (List.replicate 19 99)).1 = ok 18 ∧
    (rd.readTo .release ⟨none, fun _ => none⟩ ((List.range 32).map fun i => UInt8.ofNat i) fits342
      (.extent [.slice 0, .sliceCount 0 3, .slice 0]) (List.replicate 19 99)).2.1 =
      [0, 1, 2, 3, 8, 9] ++ [10, 11, 12, 13, 14, 15] ++ [16, 17, 18, 19, 24, 25] ++ [99] := by
  refine ⟨_, rfl, ?_, ?_⟩ <;> decide +kernel

/-- The selection of `not_C08`, whose slices are longer than it: by `Fills.exact`, either it never succeeds with a
destination of exactly its size, or always with the same bytes. -/
theorem cut2015_tried (p : Profile) : Tried p cut2015 ext2015 [0, 10] [15, 5] where
  wf := cut2015_wf p
  sel := ⟨rfl, rfl, rfl⟩
  inside := by unfold InBounds; decide
  loose := not_pinned_of (.inl ⟨[10], 10, rfl, by decide⟩) rfl rfl rfl
  elem := by decide
  size := by decide

/-- In release builds, from a readable file, it never succeeds (the slices are 95 bytes, see `not_C08`). -/
example (rd : CacheReader) (hrd : CacheReader.withDataset .release cut2015 = ok rd) (dst : List Byte)
    (hd : dst.length = 75) (n : Nat) :
    (rd.readTo .release io2015 (List.replicate 400 1) cut2015 ext2015 dst).1 ≠ ok n := by
  have h := not_C08.2.1 rd hrd
  rcases C92_cache (io := io2015) (file := List.replicate 400 1) (cut2015_tried .release) (by unfold AddrDet; decide +kernel)
    hrd [] with
    ⟨bytes, -, -, h3⟩ | h3
  · obtain ⟨h4, h5⟩ := h3 (List.replicate 100 0) _ (by decide) rfl
    obtain ⟨-, h6⟩ := h3 dst _ (by omega) rfl
    refine h6 ?_ n
    rcases Nat.lt_or_ge dst.length bytes.length with hl | hl
    · exact hl
    have h4 := congrArg Prod.snd (h4 (by rw [List.length_replicate]; omega))
    simp only [afterReads] at h4
    rw [h.2] at h4
    have h7 : (List.replicate 95 (1 : Byte) ++ List.replicate 5 0)[80]? =
        (bytes ++ (List.replicate 100 0).drop bytes.length)[80]? := by rw [h4]
    rw [List.getElem?_append_right (l₁ := bytes) (by omega), List.getElem?_drop,
      show bytes.length + (80 - bytes.length) = 80 by omega] at h7
    exact absurd h7 (by decide)
  · exact h3 dst _ (by omega) rfl n

end Hidefix.Props
