import Verif.Proofs.Return
import Mathlib.Logic.Relation

/-!
# No empty slice in a right enumeration of a release build
-/

set_option autoImplicit false

namespace Hidefix.Proofs
open Hidefix Hidefix.Spec Outcome Relation

/-- A call at row `n` with the coordinates of row `q` that gains nothing and moves the coordinates to `q'`. -/
def Idle (stop c P S : Nat) (L : List Dim) (n q q' : Nat) : Prop :=
  n + c < tot L ∧ q < tot L ∧ q' < tot L ∧ ∃ adv w,
    walk .release stop c adv (P * (n + c)) (lanesAt S L q) = ok w ∧ w.soff = P * n ∧ w.offs = digits L q'

/-- A call at row `m`, with its coordinates, that gains the rows up to `n` and moves the coordinates to `q`. -/
def Go (stop c P S : Nat) (L : List Dim) (m n q : Nat) : Prop :=
  m + c < tot L ∧ q < tot L ∧ m < n ∧ n < tot L ∧ Run L m (n - m) ∧ ∃ adv w,
    walk .release stop c adv (P * (m + c)) (lanesAt S L m) = ok w ∧ w.soff = P * n ∧ w.offs = digits L q

/-- The first position, or coordinates that some call left. -/
def At (stop S : Nat) (L : List Dim) (q : Nat) : Prop :=
  q = 0 ∨ ∃ c adv s x w, c ≤ s ∧ s < stop ∧ x ≤ stop ∧
    walk .release stop c adv s (lanesAt S L x) = ok w ∧ w.soff < stop ∧ w.offs = digits L q

theorem run_short {d : Dim} {R : List Dim} (hd : DimOk d) (hx : ¬ d.exact = true) {m a : Nat} (ha : 0 < a)
    (h : Run (d :: R) m a) : m % d.cnt + a ≤ min d.cnt (d.cce (m % d.cnt)) := by
  have hdm := Nat.div_add_mod m d.cnt
  have hle : m % d.cnt + a ≤ d.cnt := by
    by_contra hgt
    refine hx (run_cross hd h (b := 1) Nat.one_pos ?_).1
    rw [Nat.mul_add, Nat.mul_one]
    omega
  have := run_in_row hd h ha hle
  omega

/-- The row claimed for the next dimension, of a dimension that is walked completely. -/
def nextc (d : Dim) (P c : Nat) : Nat := if d.cnt = 1 ∧ P ≠ 1 then c else c / d.cnt + 1

theorem nextc_pos {d : Dim} {P c : Nat} (h : P ≠ 1 → 1 ≤ c) : 1 ≤ nextc d P c := by
  unfold nextc
  split
  · rename_i h1; exact h h1.2
  · exact Nat.le_add_left 1 _

theorem at_down {stop S q : Nat} {d : Dim} {R : List Dim} (hd : DimOk d) (hR : ∀ x ∈ R, DimOk x) (hS : 0 < S)
    (hroom : Room stop S (d :: R)) (hf : d.full = true) (h : At stop S (d :: R) q) :
    q % d.cnt = 0 ∧ At stop (S * d.cs) R (q / d.cnt) := by
  have hcnt := hd.cnt
  rcases h with rfl | ⟨c, adv, s, x, w, h1, h2, h3, h4, h5, h6⟩
  · exact ⟨Nat.zero_mod _, .inl (Nat.zero_div _)⟩
  have ho : x % d.cnt < d.cnt := Nat.mod_lt _ hcnt
  have hxl := Nat.div_le_self x d.cnt
  rw [digits] at h6
  rcases rwalk_inv hd hR hS hroom.1 (by omega) h3 h2 h4 (by omega) with
    ⟨g1, -, r, g3, g4, g5⟩ | ⟨hsk, ⟨-, g0, adv', r, g3, g4, g5⟩ | ⟨hnf, g1, g2⟩⟩
  · rw [full_csz hd hf ho] at g1
    rw [g4] at h6
    refine ⟨by rw [g1, Nat.mod_one], .inr ⟨_, _, _, _, r, carry_le ho h1, h2, by omega, g3, by omega, ?_⟩⟩
    exact (List.cons.inj h6).2
  · rw [g4] at h6
    refine ⟨(List.cons.inj h6).1.symm, .inr ⟨_, _, _, _, r, carry_le' ho h1 hS, g0, by omega, g3, by omega, ?_⟩⟩
    exact (List.cons.inj h6).2
  · exfalso
    apply hnf
    refine ⟨hf, ?_⟩
    have := ((full_iff hd ho).1 hf).2
    rw [← this, Nat.min_self] at g1
    rw [Nat.sub_mul]
    omega

theorem walk_down {stop c adv P n q : Nat} {d : Dim} {R : List Dim} (hd : DimOk d) (hR : ∀ x ∈ R, DimOk x)
    (hP : 0 < P) (hstop : stop = P * tot (d :: R)) (hroom : Room stop P (d :: R)) (hf : d.full = true)
    (hn : n + c < tot (d :: R)) (hq : q < tot (d :: R)) (hn0 : n % d.cnt = 0) (hq0 : q % d.cnt = 0) {w : WalkOut}
    (h : walk .release stop c adv (P * (n + c)) (lanesAt P (d :: R) q) = ok w) (hw : w.soff < stop) :
    n / d.cnt + nextc d P c < tot R ∧ ∃ adv' r,
      walk .release stop (nextc d P c) adv' (P * d.cnt * (n / d.cnt + nextc d P c))
        (lanesAt (P * d.cs) R (q / d.cnt)) = ok r ∧ w.offs = 0 :: r.offs ∧ w.soff = r.soff := by
  have hcnt := hd.cnt
  have hs : P * (n + c) < stop := by rw [hstop]; exact Nat.mul_lt_mul_of_pos_left hn hP
  have hts : tot (d :: R) ≤ stop := by rw [hstop]; exact Nat.le_mul_of_pos_left _ hP
  have hcsz := full_csz hd hf hcnt
  have hdn : n = d.cnt * (n / d.cnt) := by have := Nat.div_add_mod n d.cnt; omega
  generalize hν : n / d.cnt = ν at *
  have hi := rwalk_inv hd hR hP hroom.1 (by omega) (by omega) hs h (by omega)
  rw [hq0, Nat.zero_add, hcsz] at hi
  unfold nextc
  rw [tot_cons] at hn
  rcases hi with ⟨g1, g2, r, g3, g4, g5⟩ | ⟨hsk, ⟨-, g0, adv', r, g3, g4, g5⟩ | ⟨hnf, g1, -⟩⟩
  · rw [if_pos ⟨g1, g2⟩]
    simp only [g1, Nat.div_one] at g3
    rw [g1, Nat.mod_one] at g4
    rw [g1, Nat.one_mul] at hdn hn
    rw [g1, Nat.mul_one, Nat.div_one, ← hdn]
    exact ⟨hn, adv, r, g3, g4, g5⟩
  · rw [if_neg hsk]
    have e : P * (n + c) + (d.cnt - c % d.cnt) * P = P * d.cnt * (ν + (c / d.cnt + 1)) := by
      have hdm := Nat.div_add_mod c d.cnt
      have hlt := Nat.mod_lt c hcnt
      rw [Nat.mul_assoc, Nat.mul_comm _ P, ← Nat.mul_add]
      congr 1
      rw [Nat.mul_add, Nat.mul_add, Nat.mul_one]
      omega
    rw [e] at g0 g3
    refine ⟨?_, adv', r, g3, g4, g5⟩
    rw [hstop, tot_cons, ← Nat.mul_assoc] at g0
    exact Nat.lt_of_mul_lt_mul_left g0
  · exfalso
    apply hnf
    refine ⟨hf, ?_⟩
    have := ((full_iff hd hcnt).1 hf).2
    rw [← this, Nat.min_self] at g1
    rw [Nat.sub_mul]
    omega

theorem idle_down {stop c P n q q' : Nat} {d : Dim} {R : List Dim} (hd : DimOk d) (hR : ∀ x ∈ R, DimOk x)
    (hP : 0 < P) (hstop : stop = P * tot (d :: R)) (hroom : Room stop P (d :: R)) (hf : d.full = true)
    (hn0 : n % d.cnt = 0) (hq0 : q % d.cnt = 0) (h : Idle stop c P P (d :: R) n q q') :
    q' % d.cnt = 0 ∧ Idle stop (nextc d P c) (P * d.cnt) (P * d.cs) R (n / d.cnt) (q / d.cnt) (q' / d.cnt) := by
  obtain ⟨h1, h2, h3, adv, w, h4, h5, h6⟩ := h
  have hlt : w.soff < stop := by
    rw [h5, hstop]; exact Nat.mul_lt_mul_of_pos_left (by omega) hP
  obtain ⟨g1, adv', r, g3, g4, g5⟩ := walk_down hd hR hP hstop hroom hf h1 h2 hn0 hq0 h4 hlt
  rw [g4, digits] at h6
  refine ⟨(List.cons.inj h6).1.symm, g1, ?_, ?_, adv', r, g3, ?_, (List.cons.inj h6).2⟩
  · exact row_lt_tot hd (by rw [← tot_cons]; exact h2)
  · exact row_lt_tot hd (by rw [← tot_cons]; exact h3)
  · rw [← g5, h5, Nat.mul_assoc]
    congr 1
    have := Nat.div_add_mod n d.cnt
    omega

theorem go_down {stop c P m n q : Nat} {d : Dim} {R : List Dim} (hd : DimOk d) (hR : ∀ x ∈ R, DimOk x)
    (hP : 0 < P) (hstop : stop = P * tot (d :: R)) (hroom : Room stop P (d :: R)) (hf : d.full = true)
    (hm0 : m % d.cnt = 0) (hn0 : n % d.cnt = 0) (h : Go stop c P P (d :: R) m n q) :
    q % d.cnt = 0 ∧ Go stop (nextc d P c) (P * d.cnt) (P * d.cs) R (m / d.cnt) (n / d.cnt) (q / d.cnt) := by
  obtain ⟨h1, h2, h3, h4, hrun, adv, w, h5, h6, h7⟩ := h
  have hcnt := hd.cnt
  have hlt : w.soff < stop := by
    rw [h6, hstop]; exact Nat.mul_lt_mul_of_pos_left (by omega) hP
  obtain ⟨g1, adv', r, g3, g4, g5⟩ := walk_down hd hR hP hstop hroom hf h1 (by omega) hm0 hm0 h5 hlt
  have em : m = d.cnt * (m / d.cnt) := by have := Nat.div_add_mod m d.cnt; omega
  have en : n = d.cnt * (n / d.cnt) := by have := Nat.div_add_mod n d.cnt; omega
  rw [g4, digits] at h7
  generalize hM : m / d.cnt = M at *
  generalize hN : n / d.cnt = N at *
  have hMN : M < N := by
    have : d.cnt * M < d.cnt * N := by omega
    exact Nat.lt_of_mul_lt_mul_left this
  refine ⟨(List.cons.inj h7).1.symm, g1, ?_, hMN, ?_, ?_, adv', r, g3, ?_, (List.cons.inj h7).2⟩
  · exact row_lt_tot hd (by rw [← tot_cons]; exact h2)
  · rw [tot_cons] at h4
    exact hN ▸ row_lt_tot hd h4
  · rcases Nat.lt_or_ge 1 (N - M) with hgt | hle
    · have := (run_cross hd hrun (b := N - M - 1) (by omega) (by
        rw [hM, show m + (n - m) = n by omega, en]
        exact Nat.mul_lt_mul_of_pos_left (by omega) hcnt)).2
      rwa [hM, Nat.sub_add_cancel (by omega)] at this
    · rw [show N - M = 1 by omega]
      exact run_one _ _
  · rw [← g5, h6, Nat.mul_assoc, ← en]

theorem idle_at {stop c P S n q q' : Nat} {L : List Dim} (hP : 0 < P) (hstop : stop = P * tot L)
    (h : Idle stop c P S L n q q') : At stop S L q' := by
  obtain ⟨h1, h2, h3, adv, w, h4, h5, h6⟩ := h
  have hts : tot L ≤ stop := by rw [hstop]; exact Nat.le_mul_of_pos_left _ hP
  have : 1 * (n + c) ≤ P * (n + c) := Nat.mul_le_mul_right _ hP
  refine .inr ⟨_, _, _, _, w, by omega, ?_, by omega, h4, ?_, h6⟩
  · rw [hstop]; exact Nat.mul_lt_mul_of_pos_left h1 hP
  · rw [h5, hstop]; exact Nat.mul_lt_mul_of_pos_left (by omega) hP

theorem go_at {stop c P S m n q : Nat} {L : List Dim} (hP : 0 < P) (hstop : stop = P * tot L)
    (h : Go stop c P S L m n q) : At stop S L q := by
  obtain ⟨h1, h2, h3, h4, -, adv, w, h5, h6, h7⟩ := h
  have hts : tot L ≤ stop := by rw [hstop]; exact Nat.le_mul_of_pos_left _ hP
  have : 1 * (m + c) ≤ P * (m + c) := Nat.mul_le_mul_right _ hP
  refine .inr ⟨_, _, _, _, w, by omega, ?_, by omega, h5, ?_, h7⟩
  · rw [hstop]; exact Nat.mul_lt_mul_of_pos_left h1 hP
  · rw [h6, hstop]; exact Nat.mul_lt_mul_of_pos_left h4 hP

theorem chain_at {stop c P S n q : Nat} {L : List Dim} (hP : 0 < P) (hstop : stop = P * tot L)
    (hq : At stop S L q) {q' : Nat} (h : ReflTransGen (Idle stop c P S L n) q q') : At stop S L q' := by
  induction h with
  | refl => exact hq
  | tail _ h _ => exact idle_at hP hstop h

theorem chain_down {stop c P n q : Nat} {d : Dim} {R : List Dim} (hd : DimOk d) (hR : ∀ x ∈ R, DimOk x)
    (hP : 0 < P) (hstop : stop = P * tot (d :: R)) (hroom : Room stop P (d :: R)) (hf : d.full = true)
    (hn0 : n % d.cnt = 0) {q' : Nat} (h : ReflTransGen (Idle stop c P P (d :: R) n) q q') (hq0 : q % d.cnt = 0) :
    ReflTransGen (Idle stop (nextc d P c) (P * d.cnt) (P * d.cs) R (n / d.cnt)) (q / d.cnt) (q' / d.cnt) := by
  induction h using ReflTransGen.head_induction_on with
  | refl => exact .refl
  | head h _ ih =>
    obtain ⟨h1, h2⟩ := idle_down hd hR hP hstop hroom hf hn0 hq0 h
    exact .head h2 (ih h1)

theorem digits_eq {L : List Dim} (hL : ∀ d ∈ L, DimOk d) {a b : Nat} (ha : a < tot L) (hb : b < tot L)
    (h : digits L a = digits L b) : a = b := digits_inj hL ha hb h

/-- Behind a dimension that is exactly one cut chunk. -/
theorem go_cut {stop c P S : Nat} {R : List Dim} (hR : ∀ x ∈ R, DimOk x) (hP : 0 < P) (hPS : P < S)
    (hstop : stop = P * tot R) (hroom : Room stop S R) (hc : 1 ≤ c)
    {q0 : Nat} (h0 : Go stop c P S R 0 1 q0) (hch0 : ReflTransGen (Idle stop c P S R 1) q0 1)
    {m q : Nat} (h : Go stop c P S R m (m + 1) q) (hch : ReflTransGen (Idle stop c P S R (m + 1)) q (m + 1)) :
    q = m + 1 := by
  have hS1 : S ≠ 1 := by omega
  have hS : 0 < S := by omega
  have hts : tot R ≤ stop := by rw [hstop]; exact Nat.le_mul_of_pos_left _ hP
  have hlt : ∀ x, x < tot R → P * x < stop := fun x hx => by rw [hstop]; exact Nat.mul_lt_mul_of_pos_left hx hP
  have hge : ∀ x, x ≤ P * x := fun x => Nat.le_mul_of_pos_left x hP
  by_cases hc1 : c = 1
  · subst hc1
    obtain ⟨g1, g2, g3, g4, -, adv, w, g5, g6, g7⟩ := h
    rcases same_nodec hR hS hS1 hroom (by have := hge (m + 1); omega) (hlt _ g1) (by omega) (by omega : q ≤ stop) g5 g6 g7 with
      hn | hn
    · exact digits_eq hR g2 g4 (g7.symm.trans hn)
    · rcases hch.cases_head with h | ⟨y, ⟨i1, i2, i3, adv', w', i5, i6, i7⟩, -⟩
      · exact h
      · exfalso
        have := hn _ _ _ _ (Nat.le_refl 1) (hlt _ i1) i5 (by rw [i6]; exact Nat.le_of_lt (hlt _ g4))
        rw [i6] at this
        have := Nat.le_of_mul_le_mul_left this hP
        omega
  · exfalso
    have hc2 : 2 ≤ c := by omega
    obtain ⟨g1, g2, g3, g4, -, adv, w, g5, g6, g7⟩ := h0
    rw [Nat.zero_add] at g1 g5
    rcases hch0.cases_tail with h | ⟨y, -, ⟨i1, i2, i3, adv', w', i5, i6, i7⟩⟩
    · rw [← h] at g7
      exact rwalk_no_return hR hP hPS hroom hc2 g1 hstop g5 (by rw [g6, Nat.mul_one]) g7
    · have hdec : w'.soff < P * (1 + c) := by
        rw [i6]; exact Nat.mul_lt_mul_of_pos_left (by omega) hP
      have := dec_second hR hS hS1 hroom (by have := hge (1 + c); omega) (hlt _ i1) (by omega) i5 hdec i7
        (hlt _ g1) g5 (by rw [g6]; exact Nat.le_of_lt (hlt _ g4))
      rw [i6, g6, Nat.mul_add] at this
      omega

/-- A call that stops in this dimension, all inner ones being whole chunks, moves the coordinates as far as it
gains rows. -/
theorem stop_here {stop c adv P n q : Nat} {d : Dim} {R : List Dim} (hd : DimOk d) (hR : ∀ x ∈ R, DimOk x)
    (hP : 0 < P) (hstop : stop = P * tot (d :: R)) (hroom : Room stop P (d :: R)) (hf : ¬ d.full = true)
    (hn : n + c < tot (d :: R)) (hq : q < tot (d :: R)) (hsk : ¬ (d.csz (q % d.cnt) = 1 ∧ P ≠ 1)) {w : WalkOut}
    (h : walk .release stop c adv (P * (n + c)) (lanesAt P (d :: R) q) = ok w) {n' : Nat} (hn' : n' < tot (d :: R))
    (hw : w.soff = P * n') :
    n' + (q % d.cnt + c) % d.cnt = n + c + min d.cnt (d.cce (q % d.cnt)) ∧
    ∃ y, w.offs = digits (d :: R) y ∧ y + n = q + n' := by
  have hcnt := hd.cnt
  have hts : tot (d :: R) ≤ stop := by rw [hstop]; exact Nat.le_mul_of_pos_left _ hP
  have hlt : ∀ x, x < tot (d :: R) → P * x < stop := fun x hx => by
    rw [hstop]; exact Nat.mul_lt_mul_of_pos_left hx hP
  have ho : q % d.cnt < d.cnt := Nat.mod_lt _ hcnt
  rcases rwalk_inv hd hR hP hroom.1 (by omega) (by omega) (hlt _ hn) h (by rw [hw]; exact Nat.le_of_lt (hlt _ hn'))
    with ⟨h1, h2, -⟩ | ⟨-, ⟨h1, -⟩ | ⟨-, h1, h2⟩⟩
  · exact absurd ⟨h1, h2⟩ hsk
  · exact absurd h1 hf
  · have e : n' + (q % d.cnt + c) % d.cnt = n + c + min d.cnt (d.cce (q % d.cnt)) := by
      rw [hw, Nat.mul_comm _ P, Nat.mul_comm _ P, ← Nat.mul_add, ← Nat.mul_add] at h1
      exact Nat.eq_of_mul_eq_mul_left hP h1
    refine ⟨e, d.cnt * (q / d.cnt + (q % d.cnt + c) / d.cnt) + min d.cnt (d.cce (q % d.cnt)), ?_, ?_⟩
    · rw [h2, digits, Nat.mul_add_mod, Nat.mul_add_div hcnt, Nat.add_assoc]
    · have h3 := Nat.div_add_mod q d.cnt
      have h4 := Nat.div_add_mod (q % d.cnt + c) d.cnt
      rw [Nat.mul_add]
      omega

/-- Such a call that gains nothing is repeated for ever. -/
theorem stuck {stop c P n q q' : Nat} {d : Dim} {R : List Dim} (hd : DimOk d) (hR : ∀ x ∈ R, DimOk x)
    (hP : 0 < P) (hstop : stop = P * tot (d :: R)) (hroom : Room stop P (d :: R)) (hf : ¬ d.full = true)
    (hsk : ¬ (d.csz (q % d.cnt) = 1 ∧ P ≠ 1))
    (h : ReflTransGen (Idle stop c P P (d :: R) n) q q') : q = q' := by
  have hL : ∀ x ∈ d :: R, DimOk x := fun x hx => by
    rcases List.mem_cons.1 hx with rfl | hx
    · exact hd
    · exact hR x hx
  induction h with
  | refl => rfl
  | tail _ h ih =>
    subst ih
    obtain ⟨i1, i2, i3, adv', w', i5, i6, i7⟩ := h
    obtain ⟨-, y, hy, e⟩ := stop_here hd hR hP hstop hroom hf i1 i2 hsk i5 (by omega) i6
    have : y = q := by omega
    subst this
    exact digits_eq hL i2 i3 (hy.symm.trans i7)

set_option maxHeartbeats 800000 in
/-- In a right enumeration the coordinates are right after every call that gains something. -/
theorem go_next {stop : Nat} {L : List Dim} (hL : ∀ d ∈ L, DimOk d) {c P : Nat} (hP : 0 < P)
    (hstop : stop = P * tot L) (hroom : Room stop P L) (hc : P ≠ 1 → 1 ≤ c)
    {n0 q0 : Nat} (h0 : Go stop c P P L 0 n0 q0) (hch0 : ReflTransGen (Idle stop c P P L n0) q0 n0)
    {m n q : Nat} (hm : At stop P L m) (h : Go stop c P P L m n q)
    (hch : ReflTransGen (Idle stop c P P L n) q n) : q = n := by
  induction L generalizing c P n0 q0 m n q with
  | nil =>
    obtain ⟨-, -, h3, h4, -⟩ := h
    simp only [tot, List.map_nil, List.prod_nil] at h4
    omega
  | cons d R ih =>
    have hd := hL d (by simp)
    have hR : ∀ x ∈ R, DimOk x := fun x hx => hL x (by simp [hx])
    have hcnt := hd.cnt
    have hcs := hd.cs
    have hfit := hd.fit
    have hts : tot (d :: R) ≤ stop := by rw [hstop]; exact Nat.le_mul_of_pos_left _ hP
    have hlt : ∀ x, x < tot (d :: R) → P * x < stop := fun x hx => by
      rw [hstop]; exact Nat.mul_lt_mul_of_pos_left hx hP
    have hge : ∀ x, x ≤ P * x := fun x => Nat.le_mul_of_pos_left x hP
    have hstop' : stop = P * d.cnt * tot R := by rw [hstop, tot_cons, Nat.mul_assoc]
    have hPc : 0 < P * d.cnt := Nat.mul_pos hP hcnt
    by_cases hf : d.full = true
    · -- the dimension is walked completely
      have hm0 := at_down hd hR hP hroom hf hm
      have hn0 := at_down hd hR hP hroom hf (chain_at hP hstop (go_at hP hstop h) hch)
      have hn00 := at_down hd hR hP hroom hf (chain_at hP hstop (go_at hP hstop h0) hch0)
      obtain ⟨hq0, hg⟩ := go_down hd hR hP hstop hroom hf hm0.1 hn0.1 h
      obtain ⟨hq00, hg0⟩ := go_down hd hR hP hstop hroom hf (Nat.zero_mod _) hn00.1 h0
      have hchd := chain_down hd hR hP hstop hroom hf hn0.1 hch hq0
      have hchd0 := chain_down hd hR hP hstop hroom hf hn00.1 hch0 hq00
      rw [Nat.zero_div] at hg0
      have done : q / d.cnt = n / d.cnt → q = n := fun e => by
        have h1 := Nat.div_add_mod q d.cnt
        have h2 := Nat.div_add_mod n d.cnt
        rw [e] at h1
        omega
      apply done
      by_cases hx : d.exact = true
      · have hcc : d.cnt = d.cs := by
          simp only [Dim.exact, Bool.and_eq_true, beq_iff_eq] at hx
          exact hx.2
        rw [← hcc] at hg hg0 hchd hchd0 hm0
        have hr2 := hroom.2
        rw [← hcc] at hr2
        exact ih hR hPc hstop' hr2 (fun _ => nextc_pos hc) hg0 hchd0 hm0.2 hg hchd
      · -- a cut chunk
        have hccs : d.cnt < d.cs := by
          obtain ⟨f1, f2, f3, f4, f5, f6, f7⟩ := dim_facts hd hcnt
          obtain ⟨e1, e2⟩ := (full_iff hd hcnt).1 hf
          have hle : d.cnt ≤ d.cs := by omega
          rcases Nat.lt_or_eq_of_le hle with h | h
          · exact h
          · exfalso
            apply hx
            simp only [Dim.full, Bool.and_eq_true, beq_iff_eq] at hf
            simp only [Dim.exact, Bool.and_eq_true, beq_iff_eq]
            exact ⟨hf.1, h⟩
        have one : ∀ {m n q : Nat}, Go stop c P P (d :: R) m n q → m % d.cnt = 0 → n % d.cnt = 0 →
            n / d.cnt = m / d.cnt + 1 := by
          rintro m n q ⟨-, -, g3, -, g5, -⟩ a1 a2
          have hr := run_short hd hx (by omega) g5
          have h1 := Nat.div_add_mod m d.cnt
          have h2 := Nat.div_add_mod n d.cnt
          have h3 : d.cnt * (m / d.cnt) < d.cnt * (n / d.cnt) := by omega
          have h3 := Nat.lt_of_mul_lt_mul_left h3
          have h4 : d.cnt * (n / d.cnt) ≤ d.cnt * (m / d.cnt + 1) := by rw [Nat.mul_add]; omega
          have h4 := Nat.le_of_mul_le_mul_left h4 hcnt
          omega
        have e1 := one h hm0.1 hn0.1
        have e0 := one h0 (Nat.zero_mod _) hn00.1
        rw [Nat.zero_div, Nat.zero_add] at e0
        rw [e1] at hg hchd ⊢
        rw [e0] at hg0 hchd0
        exact go_cut hR hPc (Nat.mul_lt_mul_of_pos_left hccs hP) hstop' hroom.2 (nextc_pos hc) hg0 hchd0 hg hchd
    · have hx : ¬ d.exact = true := fun h => hf (exact_full hd h)
      obtain ⟨g1, g2, g3, g4, g5, adv, w, g6, g7, g8⟩ := id h
      have ho : m % d.cnt < d.cnt := Nat.mod_lt _ hcnt
      by_cases hsk : d.csz (m % d.cnt) = 1 ∧ P ≠ 1
      swap
      · obtain ⟨-, y, hy, e⟩ := stop_here hd hR hP hstop hroom hf g1 (by omega) hsk g6 g4 g7
        have : y = n := by omega
        subst this
        exact digits_eq hL g2 g4 (g8.symm.trans hy)
      -- the dimension is left out
      have hc1 := hc hsk.2
      obtain ⟨f1, f2, f3, f4, f5, f6, f7⟩ := dim_facts hd ho
      have hr := run_short hd hx (by omega) g5
      have hn : n = m + 1 := by omega
      subst hn
      have hskip : ∀ {x n n' adv w}, d.csz (x % d.cnt) = 1 → n + c < tot (d :: R) → x < tot (d :: R) →
          n' < tot (d :: R) → walk .release stop c adv (P * (n + c)) (lanesAt P (d :: R) x) = ok w →
          w.soff = P * n' → ∃ r, walk .release stop ((x % d.cnt + c) / d.cnt) adv (P * (n + c))
            (lanesAt (P * d.cs) R (x / d.cnt)) = ok r ∧ w.offs = (x % d.cnt + c) % d.cnt :: r.offs ∧
            w.soff = r.soff := by
        intro x n n' adv w a1 a2 a3 a4 a5 a6
        rcases rwalk_inv hd hR hP hroom.1 (by omega) (by omega) (hlt _ a2) a5
          (by rw [a6]; exact Nat.le_of_lt (hlt _ a4)) with ⟨-, -, r, b1, b2, b3⟩ | ⟨b, -⟩
        · exact ⟨r, b1, b2, b3⟩
        · exact absurd ⟨a1, hsk.2⟩ b
      by_cases hcs1 : d.cs = 1
      · -- chunks of extent one
        have hall : ∀ x, d.csz (x % d.cnt) = 1 := fun x => by
          obtain ⟨e1, e2, e3, e4, e5, e6, e7⟩ := dim_facts hd (Nat.mod_lt x hcnt)
          have := Nat.mod_lt x hcnt
          omega
        have hS' : P * d.cs ≠ 1 := by rw [hcs1, Nat.mul_one]; exact hsk.2
        have hSc : 0 < P * d.cs := Nat.mul_pos hP hcs
        have hcnt2 : 1 < d.cnt := by
          by_contra hle
          apply hf
          simp only [Dim.full, Bool.and_eq_true, beq_iff_eq, hcs1, Nat.mod_one, true_and]
          omega
        by_cases hc2 : c = 1
        · subst hc2
          obtain ⟨r, b1, b2, b3⟩ := hskip hsk.1 g1 (by omega) g4 g6 g7
          have hmd := Nat.div_le_self m d.cnt
          have hqd := Nat.div_le_self q d.cnt
          rw [b2, digits] at g8
          rcases same_nodec hR hSc hS' hroom.2 (carry_le ho (hge (m + 1) |> fun h => by omega)) (hlt _ g1)
            (by omega) (by omega : q / d.cnt ≤ stop) b1 (by rw [← b3, g7]) (List.cons.inj g8).2 with hn | hn
          · obtain ⟨a1, a2⟩ := mod_div_add m 1 d.cnt hcnt
            refine digits_eq hL g2 g4 ?_
            rw [digits, digits, ← g8, a1, a2, hn]
          · rcases hch.cases_head with h | ⟨y, ⟨i1, i2, i3, adv', w', i5, i6, i7⟩, -⟩
            · exact h
            · exfalso
              obtain ⟨r', j1, j2, j3⟩ := hskip (hall q) i1 i2 g4 i5 i6
              have := hn _ _ _ _ (carry_le_one (Nat.mod_lt _ hcnt) (Nat.le_refl 1)) (hlt _ i1) j1
                (by rw [← j3, i6]; exact Nat.le_of_lt (hlt _ g4))
              rw [← j3, i6] at this
              have := Nat.le_of_mul_le_mul_left this hP
              omega
        · -- more than one row claimed at the very first call
          exfalso
          obtain ⟨k1, k2, k3, k4, k5, adv0, w0, k6, k7, k8⟩ := id h0
          have hr0 := run_short hd hx (by omega) k5
          rw [Nat.zero_mod] at hr0
          obtain ⟨e1, e2, e3, e4, e5, e6, e7⟩ := dim_facts hd hcnt
          have hn01 : n0 = 1 := by omega
          subst hn01
          have dec : ∀ {x n' y}, x < tot (d :: R) → n' + c < tot (d :: R) → ∀ {adv w},
              walk .release stop c adv (P * (n' + c)) (lanesAt P (d :: R) x) = ok w → w.soff = P * 1 →
              1 < n' + c → w.offs = digits (d :: R) y → y / d.cnt = 0 → False := by
            intro x n' y a1 a2 adv w a3 a4 a5 a6 a7
            obtain ⟨r, b1, b2, b3⟩ := hskip (hall x) a2 a1 (by omega) a3 a4
            have hxd := Nat.div_le_self x d.cnt
            rw [b2, digits, a7] at a6
            refine dec_ne_zero hR hSc hroom.2 (carry_le (Nat.mod_lt _ hcnt) ?_) (hlt _ a2) (by omega) b1 ?_
              (List.cons.inj a6).2
            · have := hge (n' + c); omega
            · rw [← b3, a4]; exact Nat.mul_lt_mul_of_pos_left a5 hP
          have h1d : 1 / d.cnt = 0 := Nat.div_eq_of_lt hcnt2
          rcases hch0.cases_tail with h | ⟨y, -, ⟨i1, i2, i3, adv', w', i5, i6, i7⟩⟩
          · subst h
            exact dec (by omega) k1 k6 k7 (by omega) k8 h1d
          · exact dec i2 i1 i5 i6 (by omega) i7 h1d
      · -- the last chunk is cut to one index
        have hlast : m % d.cnt + 1 = d.cnt := by omega
        have hz : ∀ x, x % d.cnt + 1 ≠ d.cnt → ¬ (d.csz (x % d.cnt) = 1 ∧ P ≠ 1) := fun x hx2 hh => by
          have h1 := hh.1
          have hxl := Nat.mod_lt x hcnt
          obtain ⟨e1, e2, e3, e4, e5, e6, e7⟩ := dim_facts hd hxl
          omega
        have hcnt2 : d.cnt ≠ 1 := fun h1 => by
          apply hf
          have hm0 : m % d.cnt = 0 := by omega
          rw [hm0] at f1 f2 f3 f4 f5 f6 hsk
          exact (full_iff hd hcnt).2 ⟨by omega, by omega⟩
        obtain ⟨r, b1, b2, b3⟩ := hskip hsk.1 g1 (by omega) g4 g6 g7
        -- the first call stops here
        obtain ⟨k1, k2, k3, k4, k5, adv0, w0, k6, k7, k8⟩ := id h0
        obtain ⟨e, -⟩ := stop_here hd hR hP hstop hroom hf k1 (by omega) (hz 0 (by rw [Nat.zero_mod]; omega)) k6 k4 k7
        have hr0 := run_short hd hx (by omega) k5
        rw [Nat.zero_mod] at hr0 e
        have hcl : c < d.cnt := by
          have := Nat.mod_lt (0 + c) hcnt
          omega
        refine stuck hd hR hP hstop hroom hf (hz q ?_) hch
        rw [b2, digits] at g8
        rw [← (List.cons.inj g8).1, show m % d.cnt + c = c - 1 + d.cnt by omega, Nat.add_mod_right,
          Nat.mod_eq_of_lt (by omega)]
        omega

end Hidefix.Proofs
