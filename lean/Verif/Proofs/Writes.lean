import Verif.Model.Reader
import Mathlib.Data.List.Perm.Basic
import Mathlib.Data.List.Perm.Subperm

/-!
# Writing into a buffer
-/

set_option autoImplicit false

namespace Hidefix.Proofs
open Hidefix Outcome

theorem blit_length {dst src : List Byte} {cur : Nat} (h : cur + src.length ≤ dst.length) :
    (blit dst cur src).length = dst.length := by
  simp only [blit, List.length_append, List.length_take, List.length_drop]; omega

/-- Byte `i` after a write. -/
theorem blit_getElem? {dst src : List Byte} {cur : Nat} (h : cur + src.length ≤ dst.length)
    (i : Nat) : (blit dst cur src)[i]? =
      if cur ≤ i ∧ i < cur + src.length then src[i - cur]? else dst[i]? := by
  unfold blit
  have hl : (List.take cur dst).length = cur := by rw [List.length_take]; omega
  rw [List.append_assoc]
  by_cases h1 : i < cur
  · rw [List.getElem?_append_left (by omega), if_neg (by omega), List.getElem?_take_of_lt h1]
  · rw [List.getElem?_append_right (by omega), hl]
    by_cases h2 : i < cur + src.length
    · rw [if_pos ⟨by omega, h2⟩, List.getElem?_append_left (by omega)]
    · rw [if_neg (by omega), List.getElem?_append_right (by omega), List.getElem?_drop]
      congr 1; omega

theorem blit_nil (dst : List Byte) (cur : Nat) : blit dst cur [] = dst := by simp [blit]

theorem blit_blit {dst a b : List Byte} {cur : Nat}
    (h : cur + a.length + b.length ≤ dst.length) :
    blit (blit dst cur a) (cur + a.length) b = blit dst cur (a ++ b) := by
  have hl : (List.take cur dst).length = cur := by rw [List.length_take]; omega
  unfold blit
  have h1 : List.take (cur + a.length) (List.take cur dst ++ a ++ List.drop (cur + a.length) dst)
      = List.take cur dst ++ a := by
    apply List.take_left'; simp [hl]
  have h2 : List.drop (cur + a.length + b.length)
      (List.take cur dst ++ a ++ List.drop (cur + a.length) dst)
      = List.drop (cur + a.length + b.length) dst := by
    have hm : (List.take cur dst ++ a).length = cur + a.length := by simp [hl]
    rw [List.drop_append, hm, List.drop_of_length_le (by omega), List.nil_append, List.drop_drop]
    congr 1; omega
  rw [h1, h2]
  simp [List.append_assoc, Nat.add_assoc]

/-- The write stays inside a buffer of `n` bytes. -/
def InRange (n : Nat) (w : Write) : Prop := w.off + w.bytes.length ≤ n

/-- No byte is touched by both writes. -/
def Disj (a b : Write) : Prop := ¬ a.overlaps b

theorem Disj.symm {a b : Write} (h : Disj a b) : Disj b a := by
  rintro ⟨i, h1, h2⟩; exact h ⟨i, h2, h1⟩

theorem applyWrites_cons (dst : List Byte) (w : Write) (ws : List Write) :
    applyWrites dst (w :: ws) = applyWrites (blit dst w.off w.bytes) ws := rfl

theorem applyWrites_append (dst : List Byte) (a b : List Write) :
    applyWrites dst (a ++ b) = applyWrites (applyWrites dst a) b := by
  simp [applyWrites, List.foldl_append]

theorem applyWrites_length {dst : List Byte} {ws : List Write}
    (h : ∀ w ∈ ws, InRange dst.length w) : (applyWrites dst ws).length = dst.length := by
  induction ws generalizing dst with
  | nil => rfl
  | cons w ws ih =>
    have hw : (blit dst w.off w.bytes).length = dst.length := blit_length (h w (by simp))
    rw [applyWrites_cons, ih (by rw [hw]; exact fun x hx => h x (by simp [hx])), hw]

theorem blit_comm {dst : List Byte} {a b : Write} (ha : InRange dst.length a)
    (hb : InRange dst.length b) (hd : Disj a b) :
    blit (blit dst a.off a.bytes) b.off b.bytes = blit (blit dst b.off b.bytes) a.off a.bytes := by
  have la : (blit dst a.off a.bytes).length = dst.length := blit_length ha
  have lb : (blit dst b.off b.bytes).length = dst.length := blit_length hb
  apply List.ext_getElem?
  intro i
  rw [blit_getElem? (by rw [la]; exact hb), blit_getElem? ha,
    blit_getElem? (by rw [lb]; exact ha), blit_getElem? hb]
  by_cases h1 : a.off ≤ i ∧ i < a.off + a.bytes.length
  · by_cases h2 : b.off ≤ i ∧ i < b.off + b.bytes.length
    · exact absurd ⟨i, h1, h2⟩ hd
    · simp [h1, h2]
  · simp [h1]

/-- The order of pairwise disjoint writes does not matter. -/
theorem applyWrites_perm {ws ws' : List Write} (hp : ws.Perm ws') :
    ∀ {dst : List Byte}, (∀ w ∈ ws, InRange dst.length w) → ws.Pairwise Disj →
      applyWrites dst ws = applyWrites dst ws' := by
  induction hp with
  | nil => intros; rfl
  | cons w hp ih =>
    intro dst hr hd
    have hw : (blit dst w.off w.bytes).length = dst.length := blit_length (hr w (by simp))
    rw [applyWrites_cons, applyWrites_cons]
    exact ih (by rw [hw]; exact fun x hx => hr x (by simp [hx])) (List.pairwise_cons.1 hd).2
  | swap a b l =>
    intro dst hr hd
    simp only [applyWrites_cons]
    rw [blit_comm (hr b (by simp)) (hr a (by simp)) ((List.pairwise_cons.1 hd).1 a (by simp))]
  | trans hp1 hp2 ih1 ih2 =>
    intro dst hr hd
    rw [ih1 hr hd]
    exact ih2 (fun w hw => hr w (hp1.mem_iff.2 hw)) (hp1.pairwise hd fun h => h.symm)

/-- Bytes outside all writes keep their value. -/
theorem applyWrites_frame {ws : List Write} {dst : List Byte} {i : Nat}
    (hr : ∀ w ∈ ws, InRange dst.length w)
    (hi : ∀ w ∈ ws, ¬ (w.off ≤ i ∧ i < w.off + w.bytes.length)) :
    (applyWrites dst ws)[i]? = dst[i]? := by
  induction ws generalizing dst with
  | nil => rfl
  | cons w ws ih =>
    have hw : (blit dst w.off w.bytes).length = dst.length := blit_length (hr w (by simp))
    rw [applyWrites_cons, ih (by rw [hw]; exact fun x hx => hr x (by simp [hx]))
      (fun x hx => hi x (by simp [hx])), blit_getElem? (hr w (by simp)), if_neg (hi w (by simp))]

/-! ## `loop` -/

/-- How a loop can end: all steps succeeded, or a prefix did and the next step did not. -/
theorem loop_spec {σ β : Type} (f : σ → β → Outcome σ) (s : σ) (bs : List β) :
    (∃ s', bs.foldlM f s = ok s' ∧ loop f s bs = (ok (), s')) ∨
    (∃ pre b post s' o, bs = pre ++ b :: post ∧ pre.foldlM f s = ok s' ∧ f s' b = o ∧
      (∀ x, o ≠ ok x) ∧ loop f s bs = (o >>= fun _ => ok (), s') ∧
      bs.foldlM f s = o) := by
  induction bs generalizing s with
  | nil => left; exact ⟨s, rfl, rfl⟩
  | cons b bs ih =>
    simp only [loop, List.foldlM_cons]
    cases hf : f s b with
    | ok s1 =>
      simp only [ok_bind]
      rcases ih s1 with ⟨s', h1, h2⟩ | ⟨pre, c, post, s', o, h1, h2, h3, h4, h5, h6⟩
      · left; exact ⟨s', h1, h2⟩
      · right
        exact ⟨b :: pre, c, post, s', o, by simp [h1], by simp [List.foldlM_cons, hf, h2], h3, h4,
          h5, h6⟩
    | err e => right; exact ⟨[], b, bs, s, err e, rfl, rfl, hf, by simp, rfl, rfl⟩
    | panic e => right; exact ⟨[], b, bs, s, .panic e, rfl, rfl, hf, by simp, rfl, rfl⟩
    | ub => right; exact ⟨[], b, bs, s, ub, rfl, rfl, hf, by simp, rfl, rfl⟩
    | diverge => right; exact ⟨[], b, bs, s, diverge, rfl, rfl, hf, by simp, rfl, rfl⟩

theorem loop_ok_iff {σ β : Type} {f : σ → β → Outcome σ} {s s' : σ} {bs : List β} :
    loop f s bs = (ok (), s') ↔ bs.foldlM f s = ok s' := by
  rcases loop_spec f s bs with ⟨t, h1, h2⟩ | ⟨pre, b, post, t, o, h1, h2, h3, h4, h5, h6⟩
  · rw [h1, h2]; simp
  · rw [h5, h6]
    constructor
    · intro h
      have := congrArg Prod.fst h
      cases o <;> simp at this
      exact absurd rfl (h4 _)
    · intro h; exact absurd h (h4 _)

theorem loop_fst_ok {σ β : Type} {f : σ → β → Outcome σ} {s : σ} {bs : List β}
    (h : (loop f s bs).1 = ok ()) : bs.foldlM f s = ok (loop f s bs).2 := by
  rw [← loop_ok_iff, ← h]

/-- Loops over related states have the same outcome and related final states. -/
theorem loop_sim {σ τ β : Type} (f : σ → β → Outcome σ) (g : τ → β → Outcome τ) (π : σ → τ)
    (I : σ → Prop) (bs : List β)
    (hstep : ∀ s, ∀ b ∈ bs, I s → (f s b >>= fun s' => ok (π s')) = g (π s) b ∧
      ∀ s', f s b = ok s' → I s')
    (s : σ) (hs : I s) :
    (loop f s bs).1 = (loop g (π s) bs).1 ∧ π (loop f s bs).2 = (loop g (π s) bs).2 ∧
      I (loop f s bs).2 := by
  induction bs generalizing s with
  | nil => exact ⟨rfl, rfl, hs⟩
  | cons b bs ih =>
    obtain ⟨h1, h2⟩ := hstep s b (by simp) hs
    simp only [loop]
    cases hf : f s b with
    | ok s1 =>
      rw [hf, ok_bind] at h1
      rw [← h1]
      exact ih (fun s b hb => hstep s b (by simp [hb])) s1 (h2 s1 hf)
    | err e => rw [hf, err_bind] at h1; rw [← h1]; exact ⟨rfl, rfl, hs⟩
    | panic e => rw [hf, panic_bind] at h1; rw [← h1]; exact ⟨rfl, rfl, hs⟩
    | ub => rw [hf, ub_bind] at h1; rw [← h1]; exact ⟨rfl, rfl, hs⟩
    | diverge => rw [hf, diverge_bind] at h1; rw [← h1]; exact ⟨rfl, rfl, hs⟩

/-- An invariant of the steps holds at the end, whatever the outcome. -/
theorem loop_inv {σ β : Type} (f : σ → β → Outcome σ) (I : σ → Prop) (bs : List β)
    (hstep : ∀ s, ∀ b ∈ bs, ∀ s', I s → f s b = ok s' → I s') (s : σ) (hs : I s) :
    I (loop f s bs).2 := by
  induction bs generalizing s with
  | nil => exact hs
  | cons b bs ih =>
    simp only [loop]
    split
    · rename_i s1 hf
      exact ih (fun s b hb => hstep s b (by simp [hb])) s1 (hstep s b (by simp) s1 hs hf)
    all_goals exact hs

end Hidefix.Proofs
