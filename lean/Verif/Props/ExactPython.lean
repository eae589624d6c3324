import Verif.Props.ExactValues
import Verif.Props.Python

/-!
# C39, exactly: for which selections Python reads are right in a debug build
-/

set_option autoImplicit false

namespace Hidefix.Props
open Hidefix Hidefix.Spec Hidefix.Proofs Outcome

/-- C39 in a debug build, exactly: for a writable (`Spec.Writable`) dataset and items that select something (without a
literal -1), `__getitem__` returns the array numpy would return (up to dimensions of size 1) for every
schedule and whatever was in the memory it was allocated from, whatever the file stores, if and only if the
selection satisfies `Spec.Good`. -/
theorem C39_exact {hst : Host} {t : Prim} {ds : Dataset} {N : Nat}
    {inflate : List Byte → Option (List Byte)} {items : List PyItem} {ls : List (List Nat)}
    {sort : List GItem → List GItem} (hP : Writable inflate ds N) (hwf : WF .debug ds)
    (ht : ds.dtype = numpyType t) (hsw : Swaps hst t ∨ ds.order ≠ .LE)
    (hsort : ∀ l, SortedByAddr l (sort l))
    (hn : ∀ n ∈ ds.shape, n < 2 ^ 63) (hsel : numpySelect ds.shape items = some ls)
    (hne : ∀ l ∈ ls, l ≠ []) (h1 : PyItem.int (-1) ∉ items)
    (hmem : (ls.map List.length).prod * ds.dsize < 2 ^ 63) :
    (∀ file A, Stores inflate file ds A → Sizes file ds →
      ∀ rd : ByteReader, (∀ ext dst, DirectReadToPar .debug ⟨some file, inflate⟩ ds sort ext dst
        (rd ext dst)) →
      ∃ vs, (∀ junk, pyGetItem .debug hst ds rd junk items =
          ok (t, squeezed (ls.map List.length), vs.flatten)) ∧
        SameValues hst ds.order ((combine ls).map A) vs) ↔
    Good .debug ds (firsts ls) (ls.map List.length) := by
  have had : AddrDet ds := hP.addrDet
  constructor
  · intro h
    obtain ⟨ext, e1, e2, e3, hext, hSel⟩ := py_selection (p := .debug) hn hsel hne h1
    have hpos : ∀ c ∈ ls.map List.length, 0 < c := by
      intro c hc
      obtain ⟨l, hl, rfl⟩ := List.mem_map.1 hc
      exact List.length_pos_iff.2 (hne l hl)
    have hprod := pyShape_prod hpos
    have ht' := pyPrim_numpy ht
    have hdsz : t.size = ds.dsize := by
      rw [pyPrim_size ht']
      have := hwf.built
      unfold Dataset.new at this
      obtain ⟨_, -, this⟩ := bind_eq_ok.1 this
      obtain ⟨_, -, this⟩ := bind_eq_ok.1 this
      obtain ⟨_, -, this⟩ := bind_eq_ok.1 this
      obtain ⟨_, -, this⟩ := bind_eq_ok.1 this
      obtain ⟨_, -, this⟩ := bind_eq_ok.1 this
      have := Outcome.ok.inj this
      rw [← this]
    refine good_of_agreeing (inflate := inflate) hP hwf hSel e2 fun file A hset => ?_
    obtain ⟨rd, k1, k2⟩ := some_schedule (p := .debug) (inflate := inflate) (file := file) had hsort
    refine ⟨rd, fun n d hd => k2 ext _ n d (by
      rw [List.length_replicate]; exact Nat.lt_trans hmem (by decide)) hd, fun hlen => ?_⟩
    obtain ⟨vs, v1, v2⟩ := h file A hset.stores hset.sizes rd k1
    have v1 := v1 fun _ => 0
    unfold pyGetItem at v1
    rw [e1, ok_bind] at v1
    simp only [ht', ok_bind, hprod, hdsz] at v1
    rw [if_pos (by omega), ok_bind, hext, ok_bind, List.map_const', List.length_range] at v1
    obtain ⟨r, h4, h5⟩ := bind_eq_ok.1 v1
    have h5 := (Prod.mk.inj (Prod.mk.inj (Outcome.ok.inj h5)).2).2
    exact ⟨r, read_of_valuesTo hset hdsz hsw hlen h4 h5 (by rw [e3]; exact v2)⟩
  · intro hg file A hst' hsz rd hrd
    exact C39_partial hwf had rfl hst' hsz ht hsw hsort hrd hn hsel hne h1 hg hmem

/-- Python's `[2:, 1, 0]` of the 6×2×2 dataset is wrong for some content of the file. -/
example (inflate : List Byte → Option (List Byte)) :
    ∃ file A, Stores inflate file series622 A ∧ Sizes file series622 ∧
      ∃ rd : ByteReader, (∀ ext dst, DirectReadToPar .debug ⟨some file, inflate⟩ series622 sortByAddr ext
        dst (rd ext dst)) ∧
      ¬ ∃ vs, (∀ junk, pyGetItem .debug .little series622 rd junk
          [.slice (some 2) none none, .int 1, .int 0] = ok (.u8, [4], vs.flatten)) ∧
        SameValues .little series622.order
          ((combine [[2, 3, 4, 5], [1], [0]]).map A) vs := by
  by_contra hn
  have := (C39_exact (hst := .little) (t := .u8) (inflate := inflate) (series622_plain.writable (series622_wf .debug) _)
    (series622_wf .debug) (items := [.slice (some 2) none none, .int 1, .int 0])
    (ls := [[2, 3, 4, 5], [1], [0]]) rfl (.inl (.inl rfl)) sortByAddr_ok (by decide) (by decide)
    (by decide) (by decide) (by decide)).1
    fun file A h1 h2 rd h3 => by_contra fun h4 => hn ⟨file, A, h1, h2, rd, h3, h4⟩
  revert this
  unfold Good
  decide

end Hidefix.Props
