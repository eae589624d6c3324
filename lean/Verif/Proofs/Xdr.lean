import Verif.Proofs.StreamRun
import Verif.Spec.Number

/-!
# XDR, element by element
-/

set_option autoImplicit false

namespace Hidefix.Proofs
open Hidefix Hidefix.Spec Outcome

theorem flatten_length_const {k : Nat} {es : List (List Byte)} (h : ∀ e ∈ es, e.length = k) :
    es.flatten.length = es.length * k := by
  induction es with
  | nil => simp
  | cons e es ih =>
    rw [List.flatten_cons, List.length_append, h e (by simp), ih fun x hx => h x (by simp [hx]),
      List.length_cons, Nat.add_mul]
    omega

/-- The `n`-th element of a buffer made of elements of `k` bytes. -/
theorem flatten_elem {k : Nat} {es : List (List Byte)} (h : ∀ e ∈ es, e.length = k) {n : Nat}
    (hn : n < es.length) : (es.flatten.drop (n * k)).take k = es[n] := by
  induction es generalizing n with
  | nil => simp at hn
  | cons e es ih =>
    have he := h e (by simp)
    cases n with
    | zero => simp [← he]
    | succ n =>
      have hn : n < es.length := by simpa using hn
      rw [List.flatten_cons, Nat.add_mul, Nat.one_mul, Nat.add_comm, ← he, ← List.drop_drop,
        List.drop_left, he, ih (fun x hx => h x (by simp [hx])) hn]
      simp

theorem words_flatten {k : Nat} (hk : 0 < k) {es : List (List Byte)} (h : ∀ e ∈ es, e.length = k) :
    words k es.flatten = es := by
  unfold words
  rw [flatten_length_const h, Nat.mul_div_cancel _ hk]
  apply List.ext_getElem
  · simp
  · intro i h1 h2
    rw [List.getElem_map, List.getElem_range]
    exact flatten_elem h h2

/-- Every buffer of a multiple of `k` bytes is made of elements. -/
theorem exists_elems {k n : Nat} {b : List Byte} (hb : b.length = n * k) :
    ∃ es : List (List Byte), es.length = n ∧ (∀ e ∈ es, e.length = k) ∧ es.flatten = b := by
  induction n generalizing b with
  | zero => exact ⟨[], rfl, by simp, by simpa [eq_comm] using hb⟩
  | succ n ih =>
    rw [Nat.add_mul, Nat.one_mul] at hb
    obtain ⟨es, h1, h2, h3⟩ := ih (b := b.drop k) (by rw [List.length_drop]; omega)
    refine ⟨b.take k :: es, by simp [h1], ?_, by rw [List.flatten_cons, h3, List.take_append_drop]⟩
    intro e he
    simp only [List.mem_cons] at he
    rcases he with rfl | he
    · rw [List.length_take]; omega
    · exact h2 e he

theorem msFirst_length (o : ByteOrder) (e : List Byte) : (msFirst o e).length = e.length := by
  unfold msFirst; cases o <;> simp

/-- What the loop body of the widening computes. -/
theorem xdrWord_eq {h : Host} {t : Prim} {o : ByteOrder} (ho : o ≠ .Unknown)
    (ht : t.isFloat = false) (w : List Byte) :
    xdrWord h t o w = ok (beBytes 4 (widen t (beVal (msFirst o w)))) := by
  have hs : swapWord h t w = w.reverse := by unfold swapWord; rw [ht]; rfl
  have hu : ∀ v, swapWord h .u32 v = v.reverse := fun _ => rfl
  cases o with
  | Unknown => exact absurd rfl ho
  | BE =>
    cases h <;> simp [xdrWord, toNativeOne, hs, hu, hostVal, hostBytes, toBigEOne, Host.native, msFirst]
  | LE =>
    cases h <;> simp [xdrWord, toNativeOne, hs, hu, hostVal, hostBytes, toBigEOne, Host.native, msFirst]

theorem byte_ofNat (a : Byte) : UInt8.ofNat a.toNat = a := UInt8.ofNat_toNat

theorem byte_mod (a : Byte) : a.toNat % 256 = a.toNat := Nat.mod_eq_of_lt a.toNat_lt

theorem length_one {e : List Byte} (h : e.length = 1) : ∃ a, e = [a] := List.length_eq_one_iff.1 h

theorem length_two {e : List Byte} (h : e.length = 2) : ∃ a b, e = [a, b] := List.length_eq_two.1 h

theorem beBytes_low (n : Nat) (h : n < 256 ^ 2) :
    beBytes 4 n = [0, 0, UInt8.ofNat (n / 256), UInt8.ofNat (n % 256)] := by
  have h1 : n / 256 / 256 = 0 := by omega
  have h2 : n / 256 % 256 = n / 256 := by omega
  simp [beBytes, h1, h2]

theorem beBytes_high (n : Nat) (h : n < 256 ^ 2) :
    beBytes 4 (n + 256 ^ 4 - 256 ^ 2) = [255, 255, UInt8.ofNat (n / 256), UInt8.ofNat (n % 256)] := by
  have e : n + 256 ^ 4 - 256 ^ 2 = n + 65535 * 65536 := by omega
  rw [e]
  have h1 : (n + 65535 * 65536) % 256 = n % 256 := by omega
  have h2 : (n + 65535 * 65536) / 256 % 256 = n / 256 := by omega
  have h3 : (n + 65535 * 65536) / 256 / 256 = 65535 := by omega
  simp [beBytes, h1, h2, h3]

theorem two_byte (a b : Byte) : (a.toNat * 256 + b.toNat) / 256 = a.toNat ∧
    (a.toNat * 256 + b.toNat) % 256 = b.toNat ∧ a.toNat * 256 + b.toNat < 256 ^ 2 := by
  have h1 := a.toNat_lt
  have h2 := b.toNat_lt
  refine ⟨?_, ?_, ?_⟩ <;> omega

theorem widen_u8 {o : ByteOrder} {e : List Byte} (he : e.length = 1) :
    beBytes 4 (widen .u8 (beVal (msFirst o e))) = xdrElem (.uint 1) o e := by
  obtain ⟨a, ha⟩ := length_one ((msFirst_length o e).trans he)
  unfold xdrElem
  rw [ha, he]
  have h := a.toNat_lt
  have : beVal [a] = a.toNat := by simp [beVal]
  rw [this]
  unfold widen
  simp only [Prim.isSigned, Bool.false_eq_true, if_false]
  rw [beBytes_low _ (by omega), Nat.div_eq_of_lt (by omega), Nat.mod_eq_of_lt (by omega), byte_ofNat]
  rfl

theorem widen_u16 {o : ByteOrder} {e : List Byte} (he : e.length = 2) :
    beBytes 4 (widen .u16 (beVal (msFirst o e))) = xdrElem (.uint 2) o e := by
  obtain ⟨a, b, ha⟩ := length_two ((msFirst_length o e).trans he)
  unfold xdrElem
  rw [ha, he]
  have : beVal [a, b] = a.toNat * 256 + b.toNat := by simp [beVal]
  obtain ⟨h1, h2, h3⟩ := two_byte a b
  rw [this]
  unfold widen
  simp only [Prim.isSigned, Bool.false_eq_true, if_false]
  rw [beBytes_low _ h3, h1, h2, byte_ofNat, byte_ofNat]
  rfl

theorem widen_i8 {o : ByteOrder} {e : List Byte} (he : e.length = 1) :
    beBytes 4 (widen .i8 (beVal (msFirst o e))) = xdrElem (.int 1) o e := by
  obtain ⟨a, ha⟩ := length_one ((msFirst_length o e).trans he)
  unfold xdrElem intVal
  rw [ha, he]
  have h := a.toNat_lt
  have : beVal [a] = a.toNat := by simp [beVal]
  rw [this]
  have hs : sval [a] = if 2 * a.toNat < 256 then (a.toNat : Int) else a.toNat - 256 := by
    simp [sval, uval]
  simp only [if_true]
  have hw : widen .i8 a.toNat = if a.toNat < 128 then a.toNat else a.toNat + 256 ^ 4 - 256 ^ 1 := by
    simp [widen, signExtend, Prim.isSigned, Prim.size]
  rw [hw]
  by_cases hlt : 2 * a.toNat < 256
  · rw [if_pos hlt] at hs
    rw [if_pos (by omega), if_neg (by omega), beBytes_low _ (by omega),
      Nat.div_eq_of_lt (by omega), Nat.mod_eq_of_lt (by omega), byte_ofNat]
    rfl
  · rw [if_neg hlt] at hs
    rw [if_neg (by omega), if_pos (by omega)]
    rw [show a.toNat + 256 ^ 4 - 256 ^ 1 = (a.toNat + 65280) + 256 ^ 4 - 256 ^ 2 by omega,
      beBytes_high _ (by omega)]
    rw [show (a.toNat + 65280) / 256 = 255 by omega, show (a.toNat + 65280) % 256 = a.toNat by omega,
      byte_ofNat]
    rfl

theorem widen_i16 {o : ByteOrder} {e : List Byte} (he : e.length = 2) :
    beBytes 4 (widen .i16 (beVal (msFirst o e))) = xdrElem (.int 2) o e := by
  obtain ⟨a, b, ha⟩ := length_two ((msFirst_length o e).trans he)
  unfold xdrElem intVal
  rw [ha, he]
  have : beVal [a, b] = a.toNat * 256 + b.toNat := by simp [beVal]
  obtain ⟨h1, h2, h3⟩ := two_byte a b
  rw [this]
  have hs : sval [a, b] = if 2 * (a.toNat * 256 + b.toNat) < 65536 then
      ((a.toNat * 256 + b.toNat : Nat) : Int) else (a.toNat * 256 + b.toNat : Nat) - 65536 := by
    simp [sval, uval]
  simp only [if_true]
  generalize hn : a.toNat * 256 + b.toNat = n at *
  have hw : widen .i16 n = if n < 32768 then n else n + 256 ^ 4 - 256 ^ 2 := by
    simp [widen, signExtend, Prim.isSigned, Prim.size]
  rw [hw]
  by_cases hlt : 2 * n < 65536
  · rw [if_pos hlt] at hs
    rw [if_pos (by omega), if_neg (by omega), beBytes_low _ h3, h1, h2, byte_ofNat,
      byte_ofNat]
    rfl
  · rw [if_neg hlt] at hs
    rw [if_neg (by omega), if_pos (by omega), beBytes_high _ h3, h1, h2, byte_ofNat,
      byte_ofNat]
    rfl

theorem castOk_flatten {t : Prim} {es : List (List Byte)} (h : ∀ e ∈ es, e.length = t.size) :
    castOk t es.flatten = ok () := by
  unfold castOk
  rw [flatten_length_const h, Nat.mul_mod_left]; rfl

theorem cast_eq {h : Host} {t : Prim} {o : ByteOrder} {d : Datatype} (ho : o ≠ .Unknown)
    (ht : t.isFloat = false)
    (hw : ∀ e : List Byte, e.length = t.size →
      beBytes 4 (widen t (beVal (msFirst o e))) = xdrElem d o e) (hp : 0 < t.size)
    {es : List (List Byte)} (hes : ∀ e ∈ es, e.length = t.size) :
    xdrCastSlice h t o es.flatten = ok (es.map (xdrElem d o)).flatten := by
  unfold xdrCastSlice
  rw [castOk_flatten hes, ok_bind, words_flatten hp hes, mapM_ok _ (xdrElem d o), ok_bind]
  intro e he
  rw [xdrWord_eq ho ht, hw e (hes e he)]

theorem xdrElem_full {t : Datatype} {o : ByteOrder} {e : List Byte} (h4 : 4 ≤ e.length)
    (ht : ∀ n, t ≠ .custom n) : xdrElem t o e = msFirst o e := by
  have : 4 - e.length = 0 := by omega
  cases t with
  | custom n => exact absurd rfl (ht n)
  | _ => simp [xdrElem, this]

theorem swap_eq {h : Host} {t : Prim} {d : Datatype} (ht : t.isFloat = false) (h4 : 4 ≤ t.size)
    (hd : ∀ n, d ≠ .custom n) {es : List (List Byte)} (hes : ∀ e ∈ es, e.length = t.size) :
    toBigESlice h t .LE es.flatten = (es.map (xdrElem d .LE)).flatten := by
  unfold toBigESlice
  simp only
  rw [words_flatten (by omega) hes]
  congr 1
  refine List.map_congr_left fun e he => ?_
  rw [xdrElem_full (by rw [hes e he]; exact h4) hd]
  unfold swapWord msFirst; rw [ht]; rfl

theorem toBigESized_eq {h : Host} {d : Datatype} {o : ByteOrder} {k : Nat} (hk : k = 4 ∨ k = 8)
    (hd : ∀ n, d ≠ .custom n) {es : List (List Byte)} (hes : ∀ e ∈ es, e.length = k) :
    toBigESized h es.flatten o k = ok (es.map (xdrElem d o)).flatten := by
  unfold toBigESized
  by_cases ho : o = .LE
  · subst ho
    simp only [if_true]
    rcases hk with rfl | rfl
    · simp only
      rw [castOk_flatten (t := .u32) hes, ok_bind, swap_eq (t := .u32) (d := d) rfl (by decide) hd hes]
    · simp only
      rw [castOk_flatten (t := .u64) hes, ok_bind, swap_eq (t := .u64) (d := d) rfl (by decide) hd hes]
  · rw [if_neg ho]
    congr 2
    have : es.map (xdrElem d o) = es.map id := by
      refine List.map_congr_left fun e he => ?_
      rw [xdrElem_full (by rw [hes e he]; omega) hd]
      unfold msFirst
      cases o <;> first | rfl | exact absurd rfl ho
    rw [this, List.map_id]

/-- `xdr` works element by element. -/
theorem xdr_eq {h : Host} {d : Datatype} {o : ByteOrder} (hd : XdrType d)
    (ho : o ≠ .Unknown ∨ 4 ≤ d.dsize ∨ ∃ n, d = .custom n) {es : List (List Byte)}
    (hes : ∀ e ∈ es, e.length = d.dsize) :
    xdr h es.flatten d o = ok (es.map (xdrElem d o)).flatten := by
  cases d with
  | custom n =>
    have : es.map (xdrElem (.custom n) o) = es.map id := List.map_congr_left fun e _ => rfl
    rw [this, List.map_id]; rfl
  | float n =>
    simp only [Datatype.dsize] at hes
    have hn : n = 4 ∨ n = 8 := hd
    unfold xdr
    simp only [Datatype.dsize]
    exact toBigESized_eq hn (by simp) hes
  | uint n =>
    simp only [Datatype.dsize] at hes ho
    have hn : n = 1 ∨ n = 2 ∨ n = 4 ∨ n = 8 := hd
    rcases hn with rfl | rfl | hn
    · exact cast_eq (t := .u8) (by rcases ho with h | h | ⟨n, h⟩ <;> simp_all) rfl
        (fun e he => widen_u8 he) (by decide) hes
    · exact cast_eq (t := .u16) (by rcases ho with h | h | ⟨n, h⟩ <;> simp_all) rfl
        (fun e he => widen_u16 he) (by decide) hes
    · have : xdr h es.flatten (.uint n) o = toBigESized h es.flatten o n := by
        rcases hn with rfl | rfl <;> rfl
      rw [this]
      exact toBigESized_eq hn (by simp) hes
  | int n =>
    simp only [Datatype.dsize] at hes ho
    have hn : n = 1 ∨ n = 2 ∨ n = 4 ∨ n = 8 := hd
    rcases hn with rfl | rfl | hn
    · exact cast_eq (t := .i8) (by rcases ho with h | h | ⟨n, h⟩ <;> simp_all) rfl
        (fun e he => widen_i8 he) (by decide) hes
    · exact cast_eq (t := .i16) (by rcases ho with h | h | ⟨n, h⟩ <;> simp_all) rfl
        (fun e he => widen_i16 he) (by decide) hes
    · have : xdr h es.flatten (.int n) o = toBigESized h es.flatten o n := by
        rcases hn with rfl | rfl <;> rfl
      rw [this]
      exact toBigESized_eq hn (by simp) hes

/-- The factor is the ratio of the encoded to the stored size. -/
theorem xdrFactor_spec {d : Datatype} (hd : XdrType d) :
    ∃ x, xdrFactor d = ok x ∧ ∀ o (e : List Byte), e.length = d.dsize →
      (xdrElem d o e).length = d.dsize * x := by
  cases d with
  | custom n => exact ⟨1, rfl, fun o e he => by simp [xdrElem, he]⟩
  | float n =>
    have hn : n = 4 ∨ n = 8 := hd
    rcases hn with rfl | rfl
    all_goals exact ⟨1, rfl, fun o e he => by simp [xdrElem, msFirst_length, he]⟩
  | uint n =>
    have hn : n = 1 ∨ n = 2 ∨ n = 4 ∨ n = 8 := hd
    rcases hn with rfl | rfl | rfl | rfl
    · refine ⟨4, rfl, fun o e he => ?_⟩
      simp only [Datatype.dsize] at he; simp [xdrElem, msFirst_length, he, Datatype.dsize]
    · refine ⟨2, rfl, fun o e he => ?_⟩
      simp only [Datatype.dsize] at he; simp [xdrElem, msFirst_length, he, Datatype.dsize]
    all_goals
      refine ⟨1, rfl, fun o e he => ?_⟩
      simp only [Datatype.dsize] at he; simp [xdrElem, msFirst_length, he, Datatype.dsize]
  | int n =>
    have hn : n = 1 ∨ n = 2 ∨ n = 4 ∨ n = 8 := hd
    rcases hn with rfl | rfl | rfl | rfl
    · refine ⟨4, rfl, fun o e he => ?_⟩
      simp only [Datatype.dsize] at he; simp [xdrElem, msFirst_length, he, Datatype.dsize]
    · refine ⟨2, rfl, fun o e he => ?_⟩
      simp only [Datatype.dsize] at he; simp [xdrElem, msFirst_length, he, Datatype.dsize]
    all_goals
      refine ⟨1, rfl, fun o e he => ?_⟩
      simp only [Datatype.dsize] at he; simp [xdrElem, msFirst_length, he, Datatype.dsize]

end Hidefix.Proofs
