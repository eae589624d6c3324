import Verif.Model.Fetches
import Verif.Proofs.Direct

/-!
# Which ranges of the file are read
-/

set_option autoImplicit false

namespace Hidefix.Proofs
open Hidefix Hidefix.Spec Outcome

/-! ## `Direct` -/

theorem directStep_last {p : Profile} {io : Io} {file : List Byte} {ds : Dataset} {csz : Nat}
    {s s' : DirectSt} {g : GItem} (h : directStep p io file ds csz s g = ok s') :
    ∃ v, s'.last = some (g.chunk.addr, v) := by
  unfold directStep at h
  obtain ⟨v, -, h⟩ := bind_eq_ok.1 h
  obtain ⟨_, -, h⟩ := bind_eq_ok.1 h
  obtain ⟨_, -, h⟩ := bind_eq_ok.1 h
  obtain ⟨_, -, h⟩ := bind_eq_ok.1 h
  obtain ⟨_, -, h⟩ := bind_eq_ok.1 h
  obtain ⟨_, -, h⟩ := bind_eq_ok.1 h
  obtain ⟨_, -, h⟩ := bind_eq_ok.1 h
  obtain ⟨_, -, h⟩ := bind_eq_ok.1 h
  obtain ⟨_, -, h⟩ := bind_eq_ok.1 h
  obtain ⟨_, -, h⟩ := bind_eq_ok.1 h
  obtain rfl := Outcome.ok.inj h
  exact ⟨v, rfl⟩

theorem directFetch_cases (s : DirectSt) (g : GItem) :
    ((∃ v, s.last = some (g.chunk.addr, v)) ∧ directFetch s g = none) ∨
    ((∀ a v, s.last = some (a, v) → g.chunk.addr ≠ a) ∧
      directFetch s g = some (g.chunk.addr, g.chunk.size)) := by
  unfold directFetch
  cases h : s.last with
  | none => exact .inr ⟨by simp, rfl⟩
  | some av =>
    obtain ⟨a, v⟩ := av
    by_cases he : g.chunk.addr = a
    · left; exact ⟨⟨v, by rw [he]⟩, by simp [he]⟩
    · right
      refine ⟨fun a' v' h' => ?_, by simp [he]⟩
      obtain ⟨rfl, rfl⟩ := Prod.mk.inj (Option.some.inj h')
      exact he

theorem direct_loop_fetches {p : Profile} {io : Io} {file : List Byte} {ds : Dataset} {csz : Nat}
    {gs : List GItem} (hs : gs.Pairwise fun a b => a.chunk.addr ≤ b.chunk.addr) (s : DirectSt)
    (hl : ∀ a v, s.last = some (a, v) → ∀ g ∈ gs, a ≤ g.chunk.addr) :
    (loopFetches (directStep p io file ds csz) directFetch s gs).Pairwise (fun a b => a.1 < b.1) ∧
    (∀ r ∈ loopFetches (directStep p io file ds csz) directFetch s gs,
      (∀ a v, s.last = some (a, v) → a < r.1) ∧ ∃ g ∈ gs, r = (g.chunk.addr, g.chunk.size)) ∧
    ((loop (directStep p io file ds csz) s gs).1 = ok () → ∀ g ∈ gs,
      (∃ v, s.last = some (g.chunk.addr, v)) ∨
      ∃ r ∈ loopFetches (directStep p io file ds csz) directFetch s gs, r.1 = g.chunk.addr) := by
  induction gs generalizing s with
  | nil => simp [loopFetches]
  | cons g gs ih =>
    rw [List.pairwise_cons] at hs
    have hlg : ∀ a v, s.last = some (a, v) → a ≤ g.chunk.addr := fun a v h => hl a v h g (by simp)
    have hfirst : ∀ r ∈ (directFetch s g).toList, (∀ a v, s.last = some (a, v) → a < r.1) ∧
        r = (g.chunk.addr, g.chunk.size) := by
      intro r hr
      rcases directFetch_cases s g with ⟨-, h2⟩ | ⟨h1, h2⟩
      · rw [h2] at hr; simp at hr
      · rw [h2] at hr
        simp only [Option.toList_some, List.mem_singleton] at hr
        subst hr
        refine ⟨fun a v h => ?_, rfl⟩
        have := hlg a v h
        have := h1 a v h
        simp only; omega
    unfold loopFetches loop
    cases hf : directStep p io file ds csz s g with
    | ok s' =>
      simp only
      obtain ⟨v, hv⟩ := directStep_last hf
      obtain ⟨i1, i2, i3⟩ := ih hs.2 s' (fun a w h g' hg' => by
        rw [hv] at h
        obtain ⟨rfl, -⟩ := Prod.mk.inj (Option.some.inj h)
        exact hs.1 g' hg')
      refine ⟨?_, ?_, ?_⟩
      · rw [List.pairwise_append]
        refine ⟨?_, i1, fun a ha b hb => ?_⟩
        · rcases directFetch_cases s g with ⟨-, h2⟩ | ⟨-, h2⟩ <;> rw [h2] <;> simp
        · rw [(hfirst a ha).2]
          exact (i2 b hb).1 _ _ hv
      · intro r hr
        rcases List.mem_append.1 hr with hr | hr
        · exact ⟨(hfirst r hr).1, g, by simp, (hfirst r hr).2⟩
        · obtain ⟨k1, g', k2, k3⟩ := i2 r hr
          refine ⟨fun a w h => Nat.lt_of_le_of_lt (hlg a w h) (k1 _ _ hv), g', by simp [k2], k3⟩
      · intro hok g' hg'
        rcases List.mem_cons.1 hg' with rfl | hg'
        · rcases directFetch_cases s g' with ⟨h1, -⟩ | ⟨-, h2⟩
          · exact .inl h1
          · right; rw [h2]; exact ⟨_, List.mem_append.2 (.inl (List.mem_singleton.2 rfl)), rfl⟩
        · rcases i3 hok g' hg' with ⟨w, hw⟩ | ⟨r, hr, he⟩
          · rw [hv] at hw
            obtain ⟨e, -⟩ := Prod.mk.inj (Option.some.inj hw)
            rcases directFetch_cases s g with ⟨h1, -⟩ | ⟨-, h2⟩
            · left; rw [← e]; exact h1
            · right
              rw [h2]
              exact ⟨_, List.mem_append.2 (.inl (List.mem_singleton.2 rfl)), e⟩
          · exact .inr ⟨r, List.mem_append.2 (.inr hr), he⟩
    | _ =>
      simp only [List.append_nil]
      refine ⟨?_, fun r hr => ⟨(hfirst r hr).1, g, by simp, (hfirst r hr).2⟩, by simp⟩
      rcases directFetch_cases s g with ⟨-, h2⟩ | ⟨-, h2⟩ <;> rw [h2] <;> simp

/-! ## Groups of one address -/

/-- The first slice of each group. -/
def heads (l : List (List GItem)) : List (Nat × Nat) := l.flatMap fun grp =>
  match grp with
  | [] => []
  | g :: _ => [(g.chunk.addr, g.chunk.size)]

theorem chunkBy_heads {gs : List GItem} (hs : gs.Pairwise fun a b => a.chunk.addr ≤ b.chunk.addr) :
    (heads (chunkBy gs)).Pairwise (fun a b => a.1 < b.1) ∧
    (∀ r ∈ heads (chunkBy gs), ∃ g ∈ gs, r = (g.chunk.addr, g.chunk.size)) ∧
    (∀ g ∈ gs, ∃ r ∈ heads (chunkBy gs), r.1 = g.chunk.addr) := by
  induction gs with
  | nil => simp [chunkBy, heads]
  | cons g gs ih =>
    rw [List.pairwise_cons] at hs
    obtain ⟨i1, i2, i3⟩ := ih hs.2
    unfold chunkBy
    split
    · rename_i h t rest heq
      rw [heq] at i1 i2 i3
      have hcons : ∀ (x : GItem) t, heads ((x :: t) :: rest) =
          (x.chunk.addr, x.chunk.size) :: heads rest := fun x t => by simp [heads]
      rw [hcons, List.pairwise_cons] at i1
      rw [hcons] at i2 i3
      have hge : ∀ r ∈ (h.chunk.addr, h.chunk.size) :: heads rest, g.chunk.addr ≤ r.1 := by
        intro r hr
        obtain ⟨g', hg', rfl⟩ := i2 r hr
        exact hs.1 g' hg'
      split
      · rename_i he
        rw [hcons]
        refine ⟨?_, ?_, ?_⟩
        · rw [List.pairwise_cons]
          exact ⟨fun b hb => by have := i1.1 b hb; simp only at this ⊢; omega, i1.2⟩
        · intro r hr
          rcases List.mem_cons.1 hr with rfl | hr
          · exact ⟨g, by simp, rfl⟩
          · obtain ⟨g', hg', e⟩ := i2 r (by simp [hr]); exact ⟨g', by simp [hg'], e⟩
        · intro x hx
          rcases List.mem_cons.1 hx with rfl | hx
          · exact ⟨_, List.mem_cons_self .., rfl⟩
          · obtain ⟨r, hr, e⟩ := i3 x hx
            rcases List.mem_cons.1 hr with rfl | hr
            · exact ⟨_, List.mem_cons_self .., by simp only at e ⊢; omega⟩
            · exact ⟨r, by simp [hr], e⟩
      · rename_i hne
        have hcons' : heads ([g] :: (h :: t) :: rest) =
            (g.chunk.addr, g.chunk.size) :: (h.chunk.addr, h.chunk.size) :: heads rest := by
          simp [heads]
        rw [hcons']
        refine ⟨?_, ?_, ?_⟩
        · rw [List.pairwise_cons]
          refine ⟨fun b hb => ?_, List.pairwise_cons.2 i1⟩
          have h0 := hge (h.chunk.addr, h.chunk.size) (by simp)
          rcases List.mem_cons.1 hb with rfl | hb
          · simp only at h0 ⊢; omega
          · have := i1.1 b hb; simp only at h0 this ⊢; omega
        · intro r hr
          rcases List.mem_cons.1 hr with rfl | hr
          · exact ⟨g, by simp, rfl⟩
          · obtain ⟨g', hg', e⟩ := i2 r hr; exact ⟨g', by simp [hg'], e⟩
        · intro x hx
          rcases List.mem_cons.1 hx with rfl | hx
          · exact ⟨_, List.mem_cons_self .., rfl⟩
          · obtain ⟨r, hr, e⟩ := i3 x hx; exact ⟨r, List.mem_cons_of_mem _ hr, e⟩
    · rename_i hno
      have : gs = [] := by
        cases gs with
        | nil => rfl
        | cons g' gs' =>
          exfalso
          obtain ⟨r, hr, -⟩ := i3 g' (by simp)
          cases hc : chunkBy (g' :: gs') with
          | nil => rw [hc] at hr; simp [heads] at hr
          | cons a rest =>
            cases a with
            | nil =>
              obtain ⟨_, _, e, -⟩ := chunkBy_group (g' :: gs') [] (by rw [hc]; simp)
              simp at e
            | cons x t => exact hno x t rest hc
      subst this
      simp [chunkBy, heads]

/-! ## Least recently used caches -/

/-- The keys of `c`, most recent first, begin with distinct members of `all` among which are all of
`done`. -/
def Recent (all done : List Nat) (c : Lru) : Prop :=
  ∃ pre suf, c.entries.map Prod.fst = pre ++ suf ∧ pre.Nodup ∧ (∀ k ∈ pre, k ∈ all) ∧
    ∀ k ∈ done, k ∈ pre

theorem filter_keys (l : List (Nat × List Byte)) (k : Nat) :
    (l.filter fun e => e.1 != k).map Prod.fst = (l.map Prod.fst).filter fun x => x != k := by
  rw [List.filter_map]; rfl

theorem Lru.get_none {c : Lru} {k : Nat} :
    c.get k = none ↔ k ∉ c.entries.map Prod.fst := by
  unfold Lru.get
  split
  · rename_i e he
    have := List.mem_of_find?_eq_some he
    have hk : e.1 = k := by simpa using List.find?_some he
    simp only [List.mem_map, reduceCtorEq, false_iff, not_not]
    exact ⟨e, this, hk⟩
  · rename_i he
    simp only [List.find?_eq_none] at he
    simp only [true_iff, List.mem_map, not_exists, not_and]
    intro e hm h
    have := he e hm
    simp [h] at this

theorem Lru.get_keys {c c' : Lru} {k : Nat} {v : List Byte} (h : c.get k = some (v, c')) :
    c'.cap = c.cap ∧
    c'.entries.map Prod.fst = k :: (c.entries.map Prod.fst).filter fun x => x != k := by
  unfold Lru.get at h
  split at h
  · rename_i e he
    have hk : e.1 = k := by simpa using List.find?_some he
    obtain ⟨-, rfl⟩ := Prod.mk.inj (Option.some.inj h)
    simp only [List.map_cons, filter_keys, hk, and_self]
  · simp at h

theorem Lru.get_mem_iff {c c' : Lru} {k x : Nat} {v : List Byte} (h : c.get k = some (v, c')) :
    x ∈ c'.entries.map Prod.fst ↔ x ∈ c.entries.map Prod.fst := by
  have hk : k ∈ c.entries.map Prod.fst := by
    by_contra hcon
    rw [Lru.get_none.2 hcon] at h
    simp at h
  rw [(Lru.get_keys h).2]
  simp only [List.mem_cons, List.mem_filter, bne_iff_ne, ne_eq]
  constructor
  · rintro (rfl | ⟨h1, -⟩) <;> assumption
  · intro h1
    by_cases hx : x = k
    · exact .inl hx
    · exact .inr ⟨h1, hx⟩

theorem recent_front {all done pre : List Nat} {k : Nat} (hk : k ∈ all) (h1 : pre.Nodup)
    (h2 : ∀ k ∈ pre, k ∈ all) (h3 : ∀ k ∈ done, k ∈ pre) :
    (k :: pre.filter fun x => x != k).Nodup ∧
    (∀ x ∈ k :: pre.filter fun x => x != k, x ∈ all) ∧
    ∀ x ∈ done ++ [k], x ∈ k :: pre.filter fun x => x != k := by
  refine ⟨?_, ?_, ?_⟩
  · rw [List.nodup_cons]
    exact ⟨by simp, h1.sublist List.filter_sublist⟩
  · intro x hx
    rcases List.mem_cons.1 hx with rfl | hx
    · exact hk
    · exact h2 x (List.mem_filter.1 hx).1
  · intro x hx
    by_cases he : x = k
    · simp [he]
    · rcases List.mem_append.1 hx with hx | hx
      · exact List.mem_cons_of_mem _ (List.mem_filter.2 ⟨h3 x hx, by simp [he]⟩)
      · simp at hx; exact absurd hx he

theorem Recent.get {all done : List Nat} {c c' : Lru} {k : Nat} {v : List Byte}
    (h : Recent all done c) (hk : k ∈ all) (hg : c.get k = some (v, c')) :
    Recent all (done ++ [k]) c' := by
  obtain ⟨pre, suf, h0, h1, h2, h3⟩ := h
  obtain ⟨k1, k2, k3⟩ := recent_front hk h1 h2 h3
  refine ⟨_, suf.filter fun x => x != k, ?_, k1, k2, k3⟩
  rw [(Lru.get_keys hg).2, h0, List.filter_append, List.cons_append]

theorem Recent.put {all done : List Nat} {c : Lru} {k : Nat} {v : List Byte}
    (h : Recent all done c) (hk : k ∈ all) (hcap : all.length ≤ c.cap) :
    Recent all (done ++ [k]) (c.put k v) := by
  obtain ⟨pre, suf, h0, h1, h2, h3⟩ := h
  obtain ⟨k1, k2, k3⟩ := recent_front hk h1 h2 h3
  refine ⟨_, (suf.filter fun x => x != k).take (c.cap - (k :: pre.filter fun x => x != k).length), ?_,
    k1, k2, k3⟩
  have hlen : (k :: pre.filter fun x => x != k).length ≤ c.cap :=
    Nat.le_trans (List.Subperm.length_le (List.subperm_of_subset k1 k2)) hcap
  simp only [Lru.put, List.map_take, List.map_cons, filter_keys, h0, List.filter_append]
  rw [← List.cons_append, List.take_append, List.take_of_length_le hlen]

/-- A loop with a cache that is large enough for all its keys: nothing is fetched twice, and all keys
are in the cache at the end. -/
theorem cached_loop {σ β : Type} {f : σ → β → Outcome σ} {need : σ → β → Option (Nat × Nat)}
    (cacheOf : σ → Lru) (key size : β → Nat) (all : List Nat)
    (hneed : ∀ s b, need s b = if (cacheOf s).get (key b) = none then some (key b, size b) else none)
    (hf : ∀ s b s', f s b = ok s' → (∃ v, (cacheOf s).get (key b) = some (v, cacheOf s')) ∨
      ∃ v, cacheOf s' = (cacheOf s).put (key b) v)
    (bs : List β) (hall : ∀ b ∈ bs, key b ∈ all) (done : List Nat) (s : σ)
    (hcap : all.length ≤ (cacheOf s).cap) (hs : Recent all done (cacheOf s)) :
    ((loopFetches f need s bs).map Prod.fst).Nodup ∧
    (∀ r ∈ loopFetches f need s bs, r.1 ∉ done ∧ ∃ b ∈ bs, r = (key b, size b)) ∧
    ((loop f s bs).1 = ok () → Recent all (done ++ bs.map key) (cacheOf (loop f s bs).2)) := by
  induction bs generalizing done s with
  | nil => simp [loopFetches, loop]; exact hs
  | cons b bs ih =>
    have hnew : ∀ r ∈ (need s b).toList, r.1 ∉ done ∧ r = (key b, size b) := by
      intro r hr
      rw [hneed] at hr
      split at hr
      · rename_i hn
        simp only [Option.toList_some, List.mem_singleton] at hr
        subst hr
        refine ⟨fun hd => ?_, rfl⟩
        rw [Lru.get_none] at hn
        obtain ⟨pre, suf, h0, -, -, h3⟩ := hs
        exact hn (by rw [h0]; exact List.mem_append.2 (.inl (h3 _ hd)))
      · simp at hr
    have hone : ((need s b).toList.map Prod.fst).Nodup := by cases need s b <;> simp
    unfold loopFetches loop
    cases hfs : f s b with
    | ok s' =>
      simp only
      have hk := hall b (by simp)
      have hrec : Recent all (done ++ [key b]) (cacheOf s') ∧ (cacheOf s').cap = (cacheOf s).cap := by
        rcases hf s b s' hfs with ⟨v, hg⟩ | ⟨v, hp⟩
        · exact ⟨hs.get hk hg, (Lru.get_keys hg).1⟩
        · rw [hp]; exact ⟨hs.put hk hcap, rfl⟩
      obtain ⟨i1, i2, i3⟩ := ih (fun x hx => hall x (by simp [hx])) _ s' (by rw [hrec.2]; exact hcap)
        hrec.1
      refine ⟨?_, ?_, ?_⟩
      · rw [List.map_append, List.nodup_append]
        refine ⟨hone, i1, ?_⟩
        rintro x hx _ hy rfl
        obtain ⟨r, hr, rfl⟩ := List.mem_map.1 hx
        obtain ⟨r', hr', e⟩ := List.mem_map.1 hy
        refine (i2 r' hr').1 ?_
        rw [e, (hnew r hr).2]
        simp
      · intro r hr
        rcases List.mem_append.1 hr with hr | hr
        · exact ⟨(hnew r hr).1, b, by simp, (hnew r hr).2⟩
        · obtain ⟨k1, b', k2, k3⟩ := i2 r hr
          exact ⟨fun h => k1 (by simp [h]), b', by simp [k2], k3⟩
      · intro hok
        have := i3 hok
        simpa using this
    | _ =>
      simp only [List.append_nil]
      exact ⟨hone, fun r hr => ⟨(hnew r hr).1, b, by simp, (hnew r hr).2⟩, by simp⟩

theorem cacheStep_lru {p : Profile} {io : Io} {file : List Byte} {ds : Dataset} {csz : Nat}
    {s s' : CacheSt} {it : Item} (h : cacheStep p io file ds csz s it = ok s') :
    (∃ v, s.cache.get it.chunk.addr = some (v, s'.cache)) ∨
      ∃ v, s'.cache = s.cache.put it.chunk.addr v := by
  unfold cacheStep at h
  obtain ⟨_, -, h⟩ := bind_eq_ok.1 h
  obtain ⟨_, -, h⟩ := bind_eq_ok.1 h
  obtain ⟨_, -, h⟩ := bind_eq_ok.1 h
  obtain ⟨_, -, h⟩ := bind_eq_ok.1 h
  cases hg : s.cache.get it.chunk.addr with
  | some vl =>
    obtain ⟨v, l⟩ := vl
    rw [hg] at h
    simp only at h
    obtain ⟨_, -, h⟩ := bind_eq_ok.1 h
    obtain ⟨_, -, h⟩ := bind_eq_ok.1 h
    obtain ⟨_, -, h⟩ := bind_eq_ok.1 h
    obtain ⟨_, -, h⟩ := bind_eq_ok.1 h
    obtain rfl := Outcome.ok.inj h
    exact .inl ⟨v, rfl⟩
  | none =>
    rw [hg] at h
    simp only at h
    obtain ⟨v, -, h⟩ := bind_eq_ok.1 h
    obtain ⟨_, -, h⟩ := bind_eq_ok.1 h
    obtain ⟨_, -, h⟩ := bind_eq_ok.1 h
    obtain ⟨_, -, h⟩ := bind_eq_ok.1 h
    obtain ⟨_, -, h⟩ := bind_eq_ok.1 h
    obtain rfl := Outcome.ok.inj h
    exact .inr ⟨v, rfl⟩

theorem streamStep_lru {p : Profile} {rt : Rt} {io : Io} {file : List Byte} {ds : Dataset} {csz : Nat}
    {factor : Outcome Nat} {conv : List Byte → Outcome (List Byte)}
    {s s' : StreamSt} {b : BSlice} (h : streamStep p rt io file ds csz factor conv s b = ok s') :
    (∃ v, s.cache.get b.addr = some (v, s'.cache)) ∨ ∃ v, s'.cache = s.cache.put b.addr v := by
  unfold streamStep at h
  obtain ⟨_, -, h⟩ := bind_eq_ok.1 h
  obtain ⟨_, -, h⟩ := bind_eq_ok.1 h
  obtain ⟨_, -, h⟩ := bind_eq_ok.1 h
  obtain ⟨_, -, h⟩ := bind_eq_ok.1 h
  cases hg : s.cache.get b.addr with
  | some vl =>
    obtain ⟨v, l⟩ := vl
    rw [hg] at h
    simp only at h
    obtain ⟨_, -, h⟩ := bind_eq_ok.1 h
    obtain ⟨_, -, h⟩ := bind_eq_ok.1 h
    obtain ⟨_, -, h⟩ := bind_eq_ok.1 h
    obtain rfl := Outcome.ok.inj h
    exact .inl ⟨v, rfl⟩
  | none =>
    rw [hg] at h
    simp only at h
    obtain ⟨_, -, h⟩ := bind_eq_ok.1 h
    obtain ⟨v, -, h⟩ := bind_eq_ok.1 h
    obtain ⟨_, -, h⟩ := bind_eq_ok.1 h
    obtain ⟨_, -, h⟩ := bind_eq_ok.1 h
    obtain ⟨_, -, h⟩ := bind_eq_ok.1 h
    obtain rfl := Outcome.ok.inj h
    exact .inr ⟨v, rfl⟩

/-! ## Requests -/

/-- Grouping slices sorted by address: every chunk is in one request only. -/
theorem requestStep_chunks {p : Profile} {acc acc' : List Request} {g : GItem}
    (hs : (s3Chunks acc).Pairwise fun a b => a.addr < b.addr)
    (hlt : ∀ c ∈ s3Chunks acc, c.addr ≤ g.chunk.addr)
    (h : requestStep p acc g = ok acc') :
    ((s3Chunks acc').Pairwise fun a b => a.addr < b.addr) ∧
    ∀ c ∈ s3Chunks acc', c ∈ s3Chunks acc ∨ c = g.chunk := by
  unfold requestStep at h
  rcases List.eq_nil_or_concat acc with rfl | ⟨init, r, rfl⟩
  · simp only [List.getLast?_nil] at h
    obtain ⟨r, h1, h⟩ := bind_eq_ok.1 h
    obtain rfl := Outcome.ok.inj h
    unfold newRequest at h1
    obtain ⟨e, -, h1⟩ := bind_eq_ok.1 h1
    obtain rfl := Outcome.ok.inj h1
    simp [s3Chunks]
  · simp only [List.concat_eq_append] at hs hlt h ⊢
    rw [List.getLast?_concat] at h
    simp only at h
    have happ : ∀ (l l' : List Request), s3Chunks (l ++ l') = s3Chunks l ++ s3Chunks l' := fun l l' => by
      simp [s3Chunks]
    have hsing : ∀ r : Request, s3Chunks [r] = r.chunks.map Prod.fst := fun r => by simp [s3Chunks]
    rcases List.eq_nil_or_concat r.chunks with hc | ⟨ci, ⟨c, segs⟩, hc⟩
    · rw [hc] at h; simp at h
    · simp only [List.concat_eq_append] at hc
      rw [hc, List.getLast?_concat] at h
      simp only [List.dropLast_concat] at h
      have hnew : ∀ ne : c.addr ≠ g.chunk.addr,
          ((s3Chunks (init ++ [r]) ++ [g.chunk]).Pairwise fun a b => a.addr < b.addr) := by
        intro ne
        rw [List.pairwise_append]
        refine ⟨hs, by simp, fun a ha b hb => ?_⟩
        simp only [List.mem_singleton] at hb
        subst hb
        have hcle := hlt c (by rw [happ, hsing, hc]; simp)
        rw [happ, hsing, hc, List.map_append, ← List.append_assoc, List.pairwise_append] at hs
        rw [happ, hsing, hc, List.map_append, ← List.append_assoc] at ha
        rcases List.mem_append.1 ha with ha | ha
        · have := hs.2.2 a ha c (by simp); omega
        · simp at ha; subst ha; omega
      split at h
      · obtain rfl := Outcome.ok.inj h
        have : s3Chunks (init ++ [{ r with chunks := ci ++ [(c, segs ++ [⟨g.current, g.start, g.stop⟩])] }]) =
            s3Chunks (init ++ [r]) := by
          rw [happ, happ, hsing, hsing, hc]; simp
        rw [this]
        exact ⟨hs, fun x hx => .inl hx⟩
      · rename_i ne
        obtain ⟨b, -, h⟩ := bind_eq_ok.1 h
        split at h
        · obtain ⟨e, -, h⟩ := bind_eq_ok.1 h
          obtain rfl := Outcome.ok.inj h
          have : s3Chunks (init ++ [{ r with stop := e, chunks := ci ++ [(c, segs)] ++
              [(g.chunk, [⟨g.current, g.start, g.stop⟩])] }]) = s3Chunks (init ++ [r]) ++ [g.chunk] := by
            rw [happ, happ, hsing, hsing, hc]; simp
          rw [this]
          exact ⟨hnew ne, fun x hx => by simpa using hx⟩
        · obtain ⟨rn, h1, h⟩ := bind_eq_ok.1 h
          obtain rfl := Outcome.ok.inj h
          unfold newRequest at h1
          obtain ⟨e, -, h1⟩ := bind_eq_ok.1 h1
          obtain rfl := Outcome.ok.inj h1
          rw [happ, hsing]
          exact ⟨hnew ne, fun x hx => by simpa using hx⟩

theorem groupRequests_chunks {p : Profile} {gs : List GItem} {acc reqs : List Request}
    (hg : gs.Pairwise fun a b => a.chunk.addr ≤ b.chunk.addr)
    (hs : (s3Chunks acc).Pairwise fun a b => a.addr < b.addr)
    (hlt : ∀ c ∈ s3Chunks acc, ∀ g ∈ gs, c.addr ≤ g.chunk.addr)
    (h : gs.foldlM (requestStep p) acc = ok reqs) :
    (s3Chunks reqs).Pairwise fun a b => a.addr < b.addr := by
  induction gs generalizing acc with
  | nil =>
    simp only [List.foldlM_nil] at h
    obtain rfl := Outcome.ok.inj h
    exact hs
  | cons g gs ih =>
    rw [List.foldlM_cons] at h
    obtain ⟨acc', h1, h⟩ := bind_eq_ok.1 h
    rw [List.pairwise_cons] at hg
    obtain ⟨k1, k2⟩ := requestStep_chunks hs (fun c hc => hlt c hc g (by simp)) h1
    refine ih hg.2 k1 (fun c hc g' hg' => ?_) h
    rcases k2 c hc with hc | rfl
    · exact hlt c hc g' (by simp [hg'])
    · exact hg.1 g' hg'

end Hidefix.Proofs
