import Verif.Proofs.RelSlices

/-!
# Empty slices of a release build

A call of `next` that leaves an empty slice has taken back as much as it had claimed. Here: after such a call
in a right enumeration the iteration could never come back to the element it has to go on with.
-/

set_option autoImplicit false

namespace Hidefix.Proofs
open Hidefix Hidefix.Spec Outcome

/-- Entered at position `q` with at most one row claimed, the loop takes nothing back. -/
def NoDec (stop S : Nat) (L : List Dim) (q : Nat) : Prop :=
  ∀ c adv s w, c ≤ 1 → s < stop → walk .release stop c adv s (lanesAt S L q) = ok w → w.soff ≤ stop →
    s ≤ w.soff

theorem cur_le_end {d : Dim} (hd : DimOk d) {o c : Nat} (ho : o < d.cnt) (hc : c ≤ 1) :
    (o + c) % d.cnt ≤ min d.cnt (d.cce o) := by
  obtain ⟨-, -, -, -, -, f6, -⟩ := dim_facts hd ho
  rcases Nat.lt_or_ge (o + c) d.cnt with h | h
  · rw [Nat.mod_eq_of_lt h]; omega
  · rw [show o + c = d.cnt by omega, Nat.mod_self]; omega

theorem carry_le_one {o c n : Nat} (ho : o < n) (hc : c ≤ 1) : (o + c) / n ≤ 1 := by
  have : o + c ≤ 1 * n := by omega
  exact Nat.div_le_of_le_mul (by omega)

theorem full_csz {d : Dim} (hd : DimOk d) (hf : d.full = true) {o : Nat} (ho : o < d.cnt) : d.csz o = d.cnt := by
  obtain ⟨h1, h2⟩ := (full_iff hd ho).1 hf
  obtain ⟨-, -, -, f4, f5, -, -⟩ := dim_facts hd ho
  omega

theorem nodec_cons {stop S q : Nat} {d : Dim} {R : List Dim} (hd : DimOk d) (hR : ∀ x ∈ R, DimOk x) (hS : 0 < S)
    (hroom : stop + d.cnt * S < 2 ^ 62) (hq : q ≤ stop)
    (hskip : d.csz (q % d.cnt) = 1 → S ≠ 1 → NoDec stop (S * d.cs) R (q / d.cnt))
    (hfull : d.full = true → ¬ (d.csz (q % d.cnt) = 1 ∧ S ≠ 1) → q % d.cnt = 0 ∧ 1 < d.cnt ∧
      NoDec stop (S * d.cs) R (q / d.cnt)) : NoDec stop S (d :: R) q := by
  intro c adv s w hc hs hw hle
  have hcnt := hd.cnt
  have ho : q % d.cnt < d.cnt := Nat.mod_lt _ hcnt
  rcases rwalk_inv hd hR hS hroom (by omega) hq hs hw hle with
    ⟨h1, h2, r, h3, -, h5⟩ | ⟨hsk, ⟨hf, h0, adv', r, h3, -, h5⟩ | ⟨-, h1, -⟩⟩
  · rw [h5]
    exact hskip h1 h2 _ _ _ _ (carry_le_one ho hc) hs h3 (by omega)
  · obtain ⟨g1, g2, g3⟩ := hfull hf hsk
    rw [h5]
    rw [g1, Nat.zero_add, Nat.div_eq_of_lt (by omega : c < d.cnt)] at h3
    rw [g1, Nat.zero_add] at h0
    have := g3 _ _ _ _ (by omega) h0 h3 (by omega)
    omega
  · have := Nat.mul_le_mul_right S (cur_le_end hd ho hc)
    omega

theorem dec_nodec {stop c adv soff S m q : Nat} {L : List Dim} (hL : ∀ d ∈ L, DimOk d) (hS : 0 < S) (hS1 : S ≠ 1)
    (hroom : Room stop S L) (hc : c ≤ soff) (hs : soff < stop) (hm : m ≤ stop) (hq : q ≤ stop) {w : WalkOut}
    (h : walk .release stop c adv soff (lanesAt S L m) = ok w) (hdec : w.soff < soff)
    (hoffs : w.offs = digits L q) : NoDec stop S L q := by
  induction L generalizing c adv soff S m q w with
  | nil =>
    have := Outcome.ok.inj h
    subst this
    simp only at hdec
    omega
  | cons d R ih =>
    have hd := hL d (by simp)
    have hR : ∀ x ∈ R, DimOk x := fun x hx => hL x (by simp [hx])
    have hcnt := hd.cnt
    have hcs := hd.cs
    have hfit := hd.fit
    have hSc : 0 < S * d.cs := Nat.mul_pos hS hcs
    have hS' : S * d.cs ≠ 1 := fun h => hS1 (Nat.eq_one_of_mul_eq_one_right h)
    have ho : m % d.cnt < d.cnt := Nat.mod_lt _ hcnt
    have hoq : q % d.cnt < d.cnt := Nat.mod_lt _ hcnt
    have hml := Nat.div_le_self m d.cnt
    have hql := Nat.div_le_self q d.cnt
    have hdm := Nat.div_add_mod (m % d.cnt + c) d.cnt
    have hcurlt : (m % d.cnt + c) % d.cnt < d.cnt := Nat.mod_lt _ hcnt
    have hc1 : 1 * ((m % d.cnt + c) / d.cnt) ≤ d.cnt * ((m % d.cnt + c) / d.cnt) := Nat.mul_le_mul_right _ hcnt
    have hi := rwalk_inv hd hR hS hroom.1 (by omega) hm hs h (by omega)
    rw [digits] at hoffs
    rcases hi with ⟨h1, -, r, h3, h4, h5⟩ | ⟨hsk, ⟨hf, h0, adv', r, h3, h4, h5⟩ | ⟨hnf, h1, h2⟩⟩
    · rw [h4] at hoffs
      have hcr : (m % d.cnt + c) / d.cnt ≤ soff := by
        rcases Nat.eq_zero_or_pos ((m % d.cnt + c) / d.cnt) with h | h
        · omega
        · have : d.cnt * 1 ≤ d.cnt * ((m % d.cnt + c) / d.cnt) := Nat.mul_le_mul_left _ h
          obtain ⟨k, hk⟩ : ∃ k, (m % d.cnt + c) / d.cnt = k + 1 := ⟨_, (Nat.sub_add_cancel h).symm⟩
          rw [hk, Nat.mul_add] at hdm
          have : 1 * k ≤ d.cnt * k := Nat.mul_le_mul_right _ hcnt
          omega
      have hn := ih hR hSc hS' hroom.2 hcr hs (by omega) (by omega) h3 (by omega) (List.cons.inj hoffs).2
      refine nodec_cons hd hR hS hroom.1 hq (fun _ _ => hn) fun hf hsk => ?_
      exact absurd ⟨by rw [full_csz hd hf hoq, ← full_csz hd hf ho, h1], hS1⟩ hsk
    · rw [h4] at hoffs
      obtain ⟨g1, g2⟩ := List.cons.inj hoffs
      have hcr : (m % d.cnt + c) / d.cnt + 1 ≤ soff + (d.cnt - (m % d.cnt + c) % d.cnt) * S := by
        have : (d.cnt - (m % d.cnt + c) % d.cnt) * 1 ≤ (d.cnt - (m % d.cnt + c) % d.cnt) * S :=
          Nat.mul_le_mul_left _ hS
        omega
      have hn := ih hR hSc hS' hroom.2 hcr h0 (by omega) (by omega) h3 (by omega) g2
      have h2 : 1 < d.cnt := by
        by_contra hlt
        exact hsk ⟨by rw [full_csz hd hf ho]; omega, hS1⟩
      exact nodec_cons hd hR hS hroom.1 hq (fun _ _ => hn) fun _ _ => ⟨g1.symm, h2, hn⟩
    · rw [h2] at hoffs
      have hlt : min d.cnt (d.cce (m % d.cnt)) < (m % d.cnt + c) % d.cnt := by
        by_contra hge
        have := Nat.mul_le_mul_right S (Nat.le_of_not_lt hge)
        omega
      have hmin : min d.cnt (d.cce (m % d.cnt)) = d.cce (m % d.cnt) := by omega
      rw [hmin] at hoffs hlt
      obtain ⟨g1, -⟩ := List.cons.inj hoffs
      rw [Nat.mod_eq_of_lt (by omega)] at g1
      have hnfull : ¬ d.full = true := fun hf => by
        have := ((full_iff hd ho).1 hf).2
        omega
      refine nodec_cons hd hR hS hroom.1 hq (fun h1 h2 => ?_) fun hf => absurd hf hnfull
      exfalso
      rw [← g1] at h1
      obtain ⟨f1, f2, f3, f4, f5, f6, f7⟩ := dim_facts hd ho
      obtain ⟨e1, e2, e3, e4, e5, e6, e7⟩ := dim_facts hd (show d.cce (m % d.cnt) < d.cnt by omega)
      have : d.cs ≠ 1 := fun h => hsk ⟨by omega, hS1⟩
      omega

theorem mod_div_add (m c n : Nat) (hn : 0 < n) :
    (m + c) % n = (m % n + c) % n ∧ (m + c) / n = m / n + (m % n + c) / n := by
  have h := Nat.div_add_mod m n
  refine ⟨by rw [Nat.mod_add_mod], ?_⟩
  conv_lhs => rw [← h, Nat.add_assoc, Nat.mul_add_div hn]

theorem carry_le {o c n s : Nat} (ho : o < n) (hc : c ≤ s) : (o + c) / n ≤ s := by
  rcases Nat.eq_zero_or_pos ((o + c) / n) with h | h
  · omega
  · have hdm := Nat.div_add_mod (o + c) n
    have : n * 1 ≤ n * ((o + c) / n) := Nat.mul_le_mul_left _ h
    obtain ⟨k, hk⟩ : ∃ k, (o + c) / n = k + 1 := ⟨_, (Nat.sub_add_cancel h).symm⟩
    rw [hk, Nat.mul_add] at hdm
    have : 1 * k ≤ n * k := Nat.mul_le_mul_right _ (by omega)
    omega

theorem carry_le' {o c n s S : Nat} (ho : o < n) (hc : c ≤ s) (hS : 0 < S) :
    (o + c) / n + 1 ≤ s + (n - (o + c) % n) * S := by
  have hdm := Nat.div_add_mod (o + c) n
  have : (o + c) % n < n := Nat.mod_lt _ (by omega)
  have : 1 * ((o + c) / n) ≤ n * ((o + c) / n) := Nat.mul_le_mul_right _ (by omega)
  have : (n - (o + c) % n) * 1 ≤ (n - (o + c) % n) * S := Nat.mul_le_mul_left _ hS
  omega

/-- If the loop ends as far as it was entered it has moved on by the rows claimed, or taken some back. -/
theorem same_nodec {stop c adv soff S m q : Nat} {L : List Dim} (hL : ∀ d ∈ L, DimOk d) (hS : 0 < S) (hS1 : S ≠ 1)
    (hroom : Room stop S L) (hc : c ≤ soff) (hs : soff < stop) (hm : m ≤ stop) (hq : q ≤ stop) {w : WalkOut}
    (h : walk .release stop c adv soff (lanesAt S L m) = ok w) (hsame : w.soff = soff)
    (hoffs : w.offs = digits L q) : w.offs = digits L (m + c) ∨ NoDec stop S L q := by
  induction L generalizing c adv soff S m q w with
  | nil =>
    have := Outcome.ok.inj h
    subst this
    exact .inl rfl
  | cons d R ih =>
    have hd := hL d (by simp)
    have hR : ∀ x ∈ R, DimOk x := fun x hx => hL x (by simp [hx])
    have hcnt := hd.cnt
    have hSc : 0 < S * d.cs := Nat.mul_pos hS hd.cs
    have hS' : S * d.cs ≠ 1 := fun h => hS1 (Nat.eq_one_of_mul_eq_one_right h)
    have ho : m % d.cnt < d.cnt := Nat.mod_lt _ hcnt
    have hoq : q % d.cnt < d.cnt := Nat.mod_lt _ hcnt
    have hml := Nat.div_le_self m d.cnt
    have hql := Nat.div_le_self q d.cnt
    have hcurlt : (m % d.cnt + c) % d.cnt < d.cnt := Nat.mod_lt _ hcnt
    obtain ⟨a1, a2⟩ := mod_div_add m c d.cnt hcnt
    have hi := rwalk_inv hd hR hS hroom.1 (by omega) hm hs h (by omega)
    rw [digits] at hoffs ⊢
    rw [a1, a2]
    rcases hi with ⟨h1, -, r, h3, h4, h5⟩ | ⟨hsk, ⟨hf, h0, adv', r, h3, h4, h5⟩ | ⟨hnf, h1, h2⟩⟩
    · rw [h4] at hoffs ⊢
      rcases ih hR hSc hS' hroom.2 (carry_le ho hc) hs (by omega) (by omega) h3 (by omega)
        (List.cons.inj hoffs).2 with hn | hn
      · exact .inl (by rw [hn])
      · right
        refine nodec_cons hd hR hS hroom.1 hq (fun _ _ => hn) fun hf hsk => ?_
        exact absurd ⟨by rw [full_csz hd hf hoq, ← full_csz hd hf ho, h1], hS1⟩ hsk
    · right
      rw [h4] at hoffs
      obtain ⟨g1, g2⟩ := List.cons.inj hoffs
      have hgt : 1 * S ≤ (d.cnt - (m % d.cnt + c) % d.cnt) * S := Nat.mul_le_mul_right _ (by omega)
      have hn := dec_nodec hR hSc hS' hroom.2 (carry_le' ho hc hS) h0 (by omega)
        (show q / d.cnt ≤ stop by omega) h3 (by omega) g2
      have h2 : 1 < d.cnt := by
        by_contra hlt
        exact hsk ⟨by rw [full_csz hd hf ho]; omega, hS1⟩
      exact nodec_cons hd hR hS hroom.1 hq (fun _ _ => hn) fun _ _ => ⟨g1.symm, h2, hn⟩
    · left
      rw [h2]
      have heq : min d.cnt (d.cce (m % d.cnt)) = (m % d.cnt + c) % d.cnt := by
        have : (m % d.cnt + c) % d.cnt * S = min d.cnt (d.cce (m % d.cnt)) * S := by omega
        exact (Nat.eq_of_mul_eq_mul_right hS this).symm
      rw [heq, Nat.mod_mod, Nat.div_eq_of_lt hcurlt, Nat.add_zero]

/-- A loop that has taken something back does not end at the first position. -/
theorem dec_ne_zero {stop c adv soff S m : Nat} {L : List Dim} (hL : ∀ d ∈ L, DimOk d) (hS : 0 < S)
    (hroom : Room stop S L) (hc : c ≤ soff) (hs : soff < stop) (hm : m ≤ stop) {w : WalkOut}
    (h : walk .release stop c adv soff (lanesAt S L m) = ok w) (hdec : w.soff < soff) :
    w.offs ≠ digits L 0 := by
  induction L generalizing c adv soff S m w with
  | nil =>
    have := Outcome.ok.inj h
    subst this
    simp only at hdec
    omega
  | cons d R ih =>
    have hd := hL d (by simp)
    have hR : ∀ x ∈ R, DimOk x := fun x hx => hL x (by simp [hx])
    have hcnt := hd.cnt
    have hSc : 0 < S * d.cs := Nat.mul_pos hS hd.cs
    have ho : m % d.cnt < d.cnt := Nat.mod_lt _ hcnt
    have hml := Nat.div_le_self m d.cnt
    have hcurlt : (m % d.cnt + c) % d.cnt < d.cnt := Nat.mod_lt _ hcnt
    have hi := rwalk_inv hd hR hS hroom.1 (by omega) hm hs h (by omega)
    rw [digits, Nat.zero_mod, Nat.zero_div]
    intro hoffs
    rcases hi with ⟨h1, -, r, h3, h4, h5⟩ | ⟨hsk, ⟨hf, h0, adv', r, h3, h4, h5⟩ | ⟨hnf, h1, h2⟩⟩
    · rw [h4] at hoffs
      exact ih hR hSc hroom.2 (carry_le ho hc) hs (by omega) h3 (by omega) (List.cons.inj hoffs).2
    · rw [h4] at hoffs
      exact ih hR hSc hroom.2 (carry_le' ho hc hS) h0 (by omega) h3 (by omega) (List.cons.inj hoffs).2
    · rw [h2] at hoffs
      have hlt : min d.cnt (d.cce (m % d.cnt)) < (m % d.cnt + c) % d.cnt := by
        by_contra hge
        have := Nat.mul_le_mul_right S (Nat.le_of_not_lt hge)
        omega
      have g1 := (List.cons.inj hoffs).1
      rw [Nat.mod_eq_of_lt (by omega)] at g1
      obtain ⟨-, -, -, -, -, f6, -⟩ := dim_facts hd ho
      omega

/-- If the loop takes something back and ends at the second position, it takes back as much when it is entered at
the first. -/
theorem dec_second {stop c adv soff S m : Nat} {L : List Dim} (hL : ∀ d ∈ L, DimOk d) (hS : 0 < S) (hS1 : S ≠ 1)
    (hroom : Room stop S L) (hc : c ≤ soff) (hs : soff < stop) (hm : m ≤ stop) {w : WalkOut}
    (h : walk .release stop c adv soff (lanesAt S L m) = ok w) (hdec : w.soff < soff)
    (hoffs : w.offs = digits L 1) {adv' soff' : Nat} {w' : WalkOut} (hs' : soff' < stop)
    (h' : walk .release stop c adv' soff' (lanesAt S L 0) = ok w') (hw' : w'.soff ≤ stop) :
    w'.soff + (soff - w.soff) = soff' := by
  induction L generalizing c adv soff S m w adv' soff' w' with
  | nil =>
    have := Outcome.ok.inj h
    subst this
    simp only at hdec
    omega
  | cons d R ih =>
    have hd := hL d (by simp)
    have hR : ∀ x ∈ R, DimOk x := fun x hx => hL x (by simp [hx])
    have hcnt := hd.cnt
    have hSc : 0 < S * d.cs := Nat.mul_pos hS hd.cs
    have hS' : S * d.cs ≠ 1 := fun h => hS1 (Nat.eq_one_of_mul_eq_one_right h)
    have ho : m % d.cnt < d.cnt := Nat.mod_lt _ hcnt
    have hml := Nat.div_le_self m d.cnt
    have hcurlt : (m % d.cnt + c) % d.cnt < d.cnt := Nat.mod_lt _ hcnt
    have hi := rwalk_inv hd hR hS hroom.1 (by omega) hm hs h (by omega)
    have hi' := rwalk_inv hd hR hS hroom.1 (by omega) (Nat.zero_le _) hs' h' hw'
    simp only [Nat.zero_mod, Nat.zero_div, Nat.zero_add] at hi'
    rw [digits] at hoffs
    by_cases h1 : d.cnt = 1
    · have hm0 : m % d.cnt = 0 := by omega
      rw [hm0] at hi
      simp only [h1, Nat.mod_one, Nat.div_one, Nat.zero_add] at hi hi' hoffs
      rcases hi with ⟨hk, -, r, h3, h4, h5⟩ | ⟨hsk, ⟨hf, h0, adv2, r, h3, h4, h5⟩ | ⟨hnf, h2, -⟩⟩
      · rcases hi' with ⟨-, -, r', h3', -, h5'⟩ | ⟨hsk, -⟩
        · rw [h4] at hoffs
          rw [h5, h5']
          exact ih hR hSc hS' hroom.2 hc hs (by omega) h3 (by omega) (List.cons.inj hoffs).2 hs' h3' (by omega)
        · exact absurd ⟨hk, hS1⟩ hsk
      · exact absurd ⟨by rw [full_csz hd hf (by omega)]; omega, hS1⟩ hsk
      · obtain ⟨-, -, -, -, -, f6, -⟩ := dim_facts hd hcnt
        rw [show min 1 (d.cce 0) = 1 by omega] at h2
        omega
    · have h2 : 1 < d.cnt := by omega
      rw [Nat.mod_eq_of_lt h2, Nat.div_eq_of_lt h2] at hoffs
      rcases hi with ⟨hk, -, r, h3, h4, h5⟩ | ⟨hsk, ⟨hf, h0, adv2, r, h3, h4, h5⟩ | ⟨hnf, h3, h4⟩⟩
      · rw [h4] at hoffs
        exact absurd (List.cons.inj hoffs).2
          (dec_ne_zero hR hSc hroom.2 (carry_le ho hc) hs (by omega) h3 (by omega))
      · rw [h4] at hoffs
        have := (List.cons.inj hoffs).1
        omega
      · rw [h4] at hoffs
        have hlt : min d.cnt (d.cce (m % d.cnt)) < (m % d.cnt + c) % d.cnt := by
          by_contra hge
          have := Nat.mul_le_mul_right S (Nat.le_of_not_lt hge)
          omega
        have g1 := (List.cons.inj hoffs).1
        rw [Nat.mod_eq_of_lt (by omega)] at g1
        obtain ⟨-, -, -, -, -, f6, -⟩ := dim_facts hd ho
        have hm0 : m % d.cnt = 0 := by omega
        rw [hm0] at hsk h3 g1 hlt
        rw [Nat.zero_add] at h3 hlt
        rcases hi' with ⟨hk, -⟩ | ⟨-, ⟨hf, -⟩ | ⟨-, h3', -⟩⟩
        · exact absurd ⟨hk, hS1⟩ hsk
        · have := ((full_iff hd hcnt).1 hf).2
          omega
        · have : min d.cnt (d.cce 0) * S ≤ c % d.cnt * S := Nat.mul_le_mul_right _ (Nat.le_of_lt hlt)
          omega
