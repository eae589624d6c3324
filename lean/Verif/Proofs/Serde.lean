import Verif.Proofs.Utf8
import Verif.Spec.Stored
import Verif.Props.Groups

/-!
# Serialization: every decoder inverts its encoder, and fails on every shorter input
-/

set_option autoImplicit false

namespace Hidefix.Proofs
open Hidefix Hidefix.Spec Outcome

/-- `d` reads `x` off the front of any input that begins with `e`, and reports an error on every input that
ends inside `e`. -/
def Reads {α : Type} (d : Dec α) (e : List Byte) (x : α) : Prop :=
  (∀ rest, d (e ++ rest) = ok (x, rest)) ∧ ∀ p, p <+: e → p ≠ e → d p = err .decode

theorem Reads.done {α : Type} (x : α) : Reads (fun bs => ok (x, bs)) [] x :=
  ⟨fun _ => rfl, fun p h1 h2 => absurd (List.prefix_nil.1 h1) h2⟩

/-- Reading one value and then going on. -/
theorem Reads.step {α β : Type} {d : Dec α} {e e' : List Byte} {x : α} {y : β}
    {k : α × List Byte → Outcome (β × List Byte)} (h : Reads d e x)
    (h' : Reads (fun bs => k (x, bs)) e' y) : Reads (fun bs => d bs >>= k) (e ++ e') y := by
  refine ⟨fun rest => ?_, fun p h1 h2 => ?_⟩
  · simp only [List.append_assoc]
    rw [h.1]
    exact h'.1 rest
  · show d p >>= k = _
    by_cases hp : e.length ≤ p.length
    · obtain ⟨q, hq⟩ : e <+: p := List.prefix_of_prefix_length_le (List.prefix_append _ _) h1 hp
      subst hq
      rw [h.1]
      refine h'.2 q (List.prefix_append_right_inj _ |>.1 h1) ?_
      rintro rfl
      exact h2 rfl
    · have : p <+: e := List.prefix_of_prefix_length_le h1 (List.prefix_append _ _) (by omega)
      rw [h.2 p this (by rintro rfl; omega)]
      rfl

/-- The last value. -/
theorem Reads.last {α : Type} {d : Dec α} {e : List Byte} {x : α} (h : Reads d e x) :
    Reads d (e ++ []) x := by simpa using h

theorem Reads.map {α β : Type} {d : Dec α} {e : List Byte} {x : α} {y : β}
    {k : α × List Byte → Outcome (β × List Byte)} (h : Reads d e x)
    (hk : ∀ bs, k (x, bs) = ok (y, bs)) : Reads (fun bs => d bs >>= k) e y := by
  have : Reads (fun bs => k (x, bs)) [] y := ⟨fun r => hk r, fun p h1 h2 => absurd (List.prefix_nil.1 h1) h2⟩
  simpa using h.step this

theorem leBytes_length (k v : Nat) : (leBytes k v).length = k := by
  induction k generalizing v with
  | zero => rfl
  | succ k ih => simp [leBytes, ih]

theorem leVal_leBytes {k v : Nat} (h : v < 256 ^ k) : leVal (leBytes k v) = v := by
  induction k generalizing v with
  | zero => simp at h; simp [leBytes, leVal, h]
  | succ k ih =>
    rw [Nat.pow_succ] at h
    have : v / 256 < 256 ^ k := Nat.div_lt_of_lt_mul (by omega)
    simp only [leBytes, leVal, ih this]
    rw [show (UInt8.ofNat v).toNat = v % 256 from rfl]
    omega

theorem leVal_lt (b : List Byte) : leVal b < 256 ^ b.length := by
  induction b with
  | nil => simp [leVal]
  | cons a b ih =>
    simp only [leVal, List.length_cons, Nat.pow_succ]
    have := a.toNat_lt
    omega

theorem reads_take {b : List Byte} : Reads (decTake b.length) b b := by
  refine ⟨fun rest => ?_, fun p h1 h2 => ?_⟩
  · simp [decTake]
  · have : p.length < b.length := by
      rcases Nat.lt_or_ge p.length b.length with h | h
      · exact h
      · exact absurd (h1.eq_of_length_le h) h2
    simp [decTake, this]

theorem reads_int {k v : Nat} (h : v < 256 ^ k) : Reads (decInt k) (leBytes k v) v := by
  have := reads_take (b := leBytes k v)
  rw [leBytes_length] at this
  exact this.map fun bs => by simp [leVal_leBytes h]

theorem reads_u64 {v : Nat} (h : FitsU64 v) : Reads decU64 (encU64 v) v :=
  reads_int (k := 8) (by unfold FitsU64 at h; omega)

theorem reads_tag {v : Nat} (h : v < 10) : Reads decTag (encTag v) v :=
  reads_int (k := 4) (by omega)

theorem reads_bytes {b : List Byte} (h : FitsU64 b.length) : Reads decBytes (encBytes b) b :=
  (reads_u64 h).step reads_take

theorem reads_str {s : Name} (h : IsStr s) : Reads decStr (encBytes s) s :=
  (reads_bytes h.2).map fun bs => by simp [utf8_iff.2 h.1]

theorem reads_option {α : Type} {d : Dec α} {f : α → List Byte} {o : Option α}
    (h : ∀ a, o = some a → Reads d (f a) a) : Reads (decOption d) (encOption f o) o := by
  cases o with
  | none => exact (reads_int (k := 1) (v := 0) (by decide)).map fun bs => by simp
  | some a =>
    refine (reads_int (k := 1) (v := 1) (by decide)).step (e' := f a) ?_
    simp only [Nat.one_ne_zero, if_false, if_true]
    exact (h a rfl).map fun bs => rfl

theorem reads_bool (b : Bool) : Reads decBool (encBool b) b := by
  cases b
  · exact (reads_int (k := 1) (v := 0) (by decide)).map fun bs => by simp
  · exact (reads_int (k := 1) (v := 1) (by decide)).map fun bs => by simp

theorem reads_n {α : Type} {d : Dec α} {f : α → List Byte} {l : List α}
    (h : ∀ a ∈ l, Reads d (f a) a) : Reads (decN d l.length) (l.map f).flatten l := by
  induction l with
  | nil => exact Reads.done []
  | cons a l ih =>
    rw [List.map_cons, List.flatten_cons]
    refine (h a (by simp)).step ?_
    exact (ih fun x hx => h x (by simp [hx])).map fun bs => rfl

theorem reads_vec {l : List Nat} (hl : FitsU64 l.length) (h : ∀ x ∈ l, FitsU64 x) :
    Reads decVec (encArr l) l :=
  (reads_u64 hl).step (reads_n fun x hx => reads_u64 (h x hx))

theorem reads_arr {D : Nat} {l : List Nat} (hD : D ≤ 9) (h : IsArr D l) :
    Reads (decArr D) (encArr l) l := by
  obtain ⟨h1, h2⟩ := h
  refine (reads_vec (by unfold FitsU64; omega) h2).map fun bs => ?_
  simp [← h1]

theorem reads_sr {D : Nat} {l : List Nat} (hD : D ≤ 9) (h : IsArr D l) (h0 : ∀ x ∈ l, x ≠ 0) :
    Reads (decSr D) (encArr l) l := by
  obtain ⟨h1, h2⟩ := h
  refine (reads_vec (by unfold FitsU64; omega) h2).map fun bs => ?_
  have : l.all (fun c => c != 0) = true := by simpa using h0
  simp [h1, strengthReduce, this]

theorem chunk_enc_length {D : Nat} {c : Chunk} (h : c.offset.length = D) :
    c.enc.length = 8 * (D + 2) := by
  have : (c.offset.map encU64).flatten.length = D * 8 := by
    rw [flatten_length_const (k := 8), List.length_map, h]
    intro e he
    obtain ⟨x, -, rfl⟩ := List.mem_map.1 he
    exact leBytes_length 8 x
  unfold Chunk.enc
  rw [List.length_append, List.length_append, this, encU64, encU64, leBytes_length, leBytes_length]
  omega

theorem leVal_encU64 {l : List Nat} (h : ∀ x ∈ l, FitsU64 x) : (l.map encU64).map leVal = l := by
  rw [List.map_map]
  conv => rhs; rw [← List.map_id l]
  apply List.map_congr_left
  intro x hx
  exact leVal_leBytes (by have := h x hx; unfold FitsU64 at this; omega)

theorem chunk_ofBytes {D : Nat} {c : Chunk} (h : IsChunk D c) : Chunk.ofBytes c.enc = c := by
  obtain ⟨ha, hs, ho, ho'⟩ := h
  obtain ⟨addr, size, offset⟩ := c
  have e : Chunk.enc ⟨addr, size, offset⟩ = ((addr :: size :: offset).map encU64).flatten := by
    simp [Chunk.enc]
  have hw : words 8 (Chunk.enc ⟨addr, size, offset⟩) = (addr :: size :: offset).map encU64 := by
    rw [e]
    apply words_flatten (by omega)
    intro b hb
    obtain ⟨x, -, rfl⟩ := List.mem_map.1 hb
    exact leBytes_length 8 x
  unfold Chunk.ofBytes
  rw [hw, leVal_encU64]
  · simp
  · intro x hx
    simp only [List.mem_cons] at hx
    rcases hx with rfl | rfl | hx
    · exact ha
    · exact hs
    · exact ho' x hx

theorem reads_chunks {D : Nat} {l : List Chunk} (h : ∀ c ∈ l, IsChunk D c)
    (hl : FitsU64 (l.length * (8 * (D + 2)))) : Reads (decChunks D) (encChunks l) l := by
  have hc : ∀ e ∈ l.map Chunk.enc, e.length = 8 * (D + 2) := by
    intro e he
    obtain ⟨c, hc, rfl⟩ := List.mem_map.1 he
    exact chunk_enc_length (h c hc).2.2.1
  have hlen : (l.map Chunk.enc).flatten.length = l.length * (8 * (D + 2)) := by
    rw [flatten_length_const hc, List.length_map]
  refine (reads_bytes (by rw [hlen]; exact hl)).map fun bs => ?_
  have e8 : l.length * (8 * (D + 2)) = 8 * (l.length * (D + 2)) := by ring
  simp only [hlen]
  rw [if_pos (by rw [e8]; exact Nat.mul_mod_right _ _), if_pos (by
    rw [e8, Nat.mul_div_cancel_left _ (by omega)]; exact Nat.mul_mod_left _ _),
    words_flatten (by omega) hc, List.map_map]
  congr 2
  conv => rhs; rw [← List.map_id l]
  exact List.map_congr_left fun c hcl => chunk_ofBytes (h c hcl)

theorem reads_datatype {t : Datatype} (h : FitsU64 t.dsize) : Reads decDatatype t.enc t := by
  cases t with
  | uint n => exact (reads_tag (v := 0) (by omega)).step ((reads_u64 h).map fun bs => rfl)
  | int n => exact (reads_tag (v := 1) (by omega)).step ((reads_u64 h).map fun bs => rfl)
  | float n => exact (reads_tag (v := 2) (by omega)).step ((reads_u64 h).map fun bs => rfl)
  | custom n => exact (reads_tag (v := 3) (by omega)).step ((reads_u64 h).map fun bs => rfl)

theorem reads_order (o : ByteOrder) : Reads decOrder o.enc o := by
  cases o with
  | BE => exact (reads_tag (v := 0) (by omega)).map fun bs => rfl
  | LE => exact (reads_tag (v := 1) (by omega)).map fun bs => rfl
  | Unknown => exact (reads_tag (v := 2) (by omega)).map fun bs => rfl

theorem reads_dataset {ds : Dataset} (h : IsDataset ds) :
    Reads (decDataset ds.shape.length) ds.enc ds := by
  have hr := h.rank
  unfold Dataset.enc
  refine (reads_datatype h.dtype).step ?_
  refine (reads_u64 h.dsize).step ?_
  refine (reads_order ds.order).step ?_
  refine (reads_chunks h.chunks h.chunkBytes).step ?_
  refine (reads_arr hr h.shape).step ?_
  refine (reads_arr hr h.chunkShape).step ?_
  refine (reads_sr hr h.chunkShapeReduced h.divisors).step ?_
  refine (reads_arr hr h.scaledDimSz).step ?_
  refine (reads_arr hr h.dimSz).step ?_
  refine (reads_arr hr h.chunkDimSz).step ?_
  refine (reads_bool ds.shuffle).step ?_
  refine (reads_option fun z hz => reads_int (by have := h.gzip z hz; omega)).step ?_
  exact Reads.done ds

theorem reads_datasetD {ds : Dataset} (h : IsDataset ds) : Reads decDatasetD (DatasetD.enc ds) ds := by
  have hr := h.rank
  refine (reads_tag (by omega)).step ?_
  have := reads_dataset h
  simpa [show ds.shape.length < 10 by omega] using this

theorem reads_entry {α : Type} {d : Dec α} {e : List Byte} {n : Name} {a : α} (hn : IsStr n)
    (h : Reads d e a) : Reads (decEntry d) (encBytes n ++ e) (n, a) :=
  (reads_str hn).step (h.map fun bs => rfl)

theorem mapInsert_new {α : Type} {m : List (Name × α)} {k : Name} {a : α}
    (h : k ∉ m.map Prod.fst) : mapInsert m k a = m ++ [(k, a)] := by
  induction m with
  | nil => rfl
  | cons e m ih =>
    obtain ⟨q, b⟩ := e
    simp only [List.map_cons, List.mem_cons, not_or] at h
    unfold mapInsert
    rw [if_neg (fun e => h.1 e.symm), ih h.2]
    rfl

theorem mapCollect_nodup {α : Type} {l : List (Name × α)} (h : (l.map Prod.fst).Nodup) :
    mapCollect l = l := by
  have key : ∀ (l m : List (Name × α)), ((m ++ l).map Prod.fst).Nodup →
      l.foldl (fun m e => mapInsert m e.1 e.2) m = m ++ l := by
    intro l
    induction l with
    | nil => simp
    | cons e l ih =>
      intro m hm
      have hk : e.1 ∉ m.map Prod.fst := by
        rw [List.map_append, List.nodup_append] at hm
        intro hin
        exact hm.2.2 _ hin _ (by simp) rfl
      rw [List.foldl_cons, mapInsert_new hk, ih]
      · simp
      · simpa using hm
  simpa [mapCollect] using key l [] (by simpa using h)

theorem reads_map {α : Type} {d : Dec α} {f : α → List Byte} {m : List (Name × α)}
    (hl : FitsU64 m.length) (hn : (m.map Prod.fst).Nodup) (hs : ∀ e ∈ m, IsStr e.1)
    (h : ∀ e ∈ m, Reads d (f e.2) e.2) : Reads (decMap d) (encMap f m) m := by
  refine (reads_u64 hl).step ?_
  refine (reads_n (f := fun e : Name × α => encBytes e.1 ++ f e.2) fun e he =>
    reads_entry (hs e he) (h e he)).map fun bs => ?_
  simp [mapCollect_nodup hn]

theorem encGroups_eq (gs : List (Name × GroupIndex)) :
    encGroups gs = (gs.map fun e => encBytes e.1 ++ e.2.enc).flatten := by
  induction gs with
  | nil => rfl
  | cons e gs ih => obtain ⟨n, g⟩ := e; rw [encGroups, ih]; rfl

theorem reads_group {g : GroupIndex} (h : IsGroup g) (hu : AllPaths (fun p => pathUtf8 p = true) g) :
    ∃ k, ∀ depth, k ≤ depth → Reads (decGroup depth) g.enc g := by
  induction h with
  | @mk path ds gs hp hdl hdn hds hgl hgn hgs hgg ih =>
    cases hu with
    | mk hu1 hu2 =>
      have : ∃ k, ∀ e ∈ gs, ∀ depth, k ≤ depth → Reads (decGroup depth) e.2.enc e.2 := by
        clear hgl hgn hgs hgg
        induction gs with
        | nil => exact ⟨0, by simp⟩
        | cons e gs ihg =>
          obtain ⟨k1, h1⟩ := ih e (by simp) (hu2 e (by simp))
          obtain ⟨k2, h2⟩ := ihg (fun x hx => ih x (by simp [hx])) (fun x hx => hu2 x (by simp [hx]))
          refine ⟨max k1 k2, fun x hx depth hd => ?_⟩
          rcases List.mem_cons.1 hx with rfl | hx
          · exact h1 depth (by omega)
          · exact h2 x hx depth (by omega)
      obtain ⟨k, hk⟩ := this
      refine ⟨k + 1, fun depth hd => ?_⟩
      obtain ⟨depth, rfl⟩ : ∃ d', depth = d' + 1 := ⟨depth - 1, by omega⟩
      have e : GroupIndex.enc (.mk path ds gs) =
          encOption encBytes path ++ (encMap DatasetD.enc ds ++
            (encMap GroupIndex.enc gs ++ [])) := by
        rw [GroupIndex.enc, encGroups_eq]
        simp [encMap]
      rw [e]
      refine (reads_option fun s hs => reads_str ⟨by subst hs; exact utf8_iff.1 hu1, hp s hs⟩).step ?_
      refine (reads_map hdl hdn (fun e he => (hds e he).1) fun e he =>
        reads_datasetD (hds e he).2).step ?_
      refine (reads_map hgl hgn hgs fun e he => hk e he depth (by omega)).step ?_
      exact Reads.done _

/-! ## What decoding yields -/

/-- Whatever `d` returns satisfies `P`, and `d` does not lengthen the input. -/
def Yields {α : Type} (d : Dec α) (P : α → Prop) : Prop :=
  ∀ bs x r, d bs = ok (x, r) → P x ∧ r.length ≤ bs.length

theorem Yields.bind {α β : Type} {d : Dec α} {P : α → Prop} {Q : β → Prop}
    {k : α × List Byte → Outcome (β × List Byte)} (h : Yields d P)
    (hk : ∀ a, P a → Yields (fun bs => k (a, bs)) Q) : Yields (fun bs => d bs >>= k) Q := by
  intro bs x r h1
  obtain ⟨⟨a, bs'⟩, h2, h3⟩ := bind_eq_ok.1 h1
  obtain ⟨h4, h5⟩ := h bs a bs' h2
  obtain ⟨h6, h7⟩ := hk a h4 bs' x r h3
  exact ⟨h6, by omega⟩

theorem Yields.done {α : Type} {P : α → Prop} {x : α} (h : P x) : Yields (fun bs => ok (x, bs)) P := by
  intro bs y r h1
  obtain ⟨rfl, rfl⟩ := Prod.mk.inj (Outcome.ok.inj h1)
  exact ⟨h, Nat.le_refl _⟩

theorem Yields.fail {α : Type} {P : α → Prop} {e : Err} : Yields (fun _ => err e : Dec α) P := by
  intro bs y r h1; simp at h1

theorem Yields.fault {α : Type} {P : α → Prop} {e : Fault} : Yields (fun _ => Outcome.panic e : Dec α) P := by
  intro bs y r h1; simp at h1

theorem yields_take (k : Nat) : Yields (decTake k) fun b => b.length = k := by
  intro bs x r h
  unfold decTake at h
  split at h
  · simp at h
  · obtain ⟨rfl, rfl⟩ := Prod.mk.inj (Outcome.ok.inj h)
    simp only [List.length_take, List.length_drop]
    omega

theorem yields_int (k : Nat) : Yields (decInt k) fun v => v < 256 ^ k :=
  (yields_take k).bind fun b hb => Yields.done (by rw [← hb]; exact leVal_lt b)

theorem yields_u64 : Yields decU64 FitsU64 := by
  have := yields_int 8
  intro bs x r h
  obtain ⟨h1, h2⟩ := this bs x r h
  exact ⟨by unfold FitsU64; omega, h2⟩

theorem yields_bytes : Yields decBytes fun b => FitsU64 b.length :=
  yields_u64.bind fun n hn bs x r h => by
    obtain ⟨h1, h2⟩ := yields_take n bs x r h
    exact ⟨by rw [h1]; exact hn, h2⟩

theorem yields_str : Yields decStr IsStr :=
  yields_bytes.bind fun s hs => by
    by_cases hu : utf8 s = true
    · simp only [hu, if_true]; exact Yields.done ⟨utf8_iff.1 hu, hs⟩
    · simp only [hu, if_false]; exact Yields.fail

theorem yields_option {α : Type} {d : Dec α} {P : α → Prop} (h : Yields d P) :
    Yields (decOption d) fun o => ∀ a, o = some a → P a :=
  (yields_int 1).bind fun t _ => by
    by_cases h0 : t = 0
    · simp only [h0, if_true]; exact Yields.done (by simp)
    · by_cases h1 : t = 1
      · simp only [h1, Nat.one_ne_zero, if_true, if_false]
        exact h.bind fun a ha => Yields.done (x := some a) (fun b hb => by obtain rfl := Option.some.inj hb; exact ha)
      · simp only [h0, h1, if_false]; exact Yields.fail

theorem yields_n {α : Type} {d : Dec α} {P : α → Prop} (h : Yields d P) (n : Nat) :
    Yields (decN d n) fun l => l.length = n ∧ ∀ a ∈ l, P a := by
  induction n with
  | zero => exact Yields.done (by simp)
  | succ n ih =>
    refine h.bind fun a ha => ih.bind fun l hl => Yields.done ⟨by simp [hl.1], ?_⟩
    intro b hb
    rcases List.mem_cons.1 hb with rfl | hb
    · exact ha
    · exact hl.2 b hb

theorem yields_vec : Yields decVec fun l => FitsU64 l.length ∧ ∀ x ∈ l, FitsU64 x :=
  yields_u64.bind fun n hn bs x r h => by
    obtain ⟨h1, h2⟩ := yields_n yields_u64 n bs x r h
    exact ⟨⟨by rw [h1.1]; exact hn, h1.2⟩, h2⟩

theorem yields_arr (D : Nat) : Yields (decArr D) (IsArr D) :=
  yields_vec.bind fun l hl => Yields.done ⟨by simp; omega, by
    intro x hx
    rcases List.mem_append.1 hx with h | h
    · exact hl.2 x (List.mem_of_mem_take h)
    · rw [List.mem_replicate] at h; rw [h.2]; unfold FitsU64; omega⟩

theorem yields_sr (D : Nat) : Yields (decSr D) fun l => IsArr D l ∧ ∀ x ∈ l, x ≠ 0 :=
  yields_vec.bind fun l hl bs x r h => by
    simp only at h
    obtain ⟨_, h1, h⟩ := bind_eq_ok.1 h
    obtain ⟨v, h2, h⟩ := bind_eq_ok.1 h
    obtain ⟨rfl, rfl⟩ := Prod.mk.inj (Outcome.ok.inj h)
    unfold strengthReduce at h2
    split at h2
    · rename_i h0
      obtain rfl := Outcome.ok.inj h2
      unfold ensure at h1
      split at h1
      · rename_i hD
        exact ⟨⟨⟨by simpa using hD, hl.2⟩, by simpa using h0⟩, Nat.le_refl _⟩
      · simp at h1
    · simp at h2

theorem words_mem {k : Nat} {l w : List Byte} (h : w ∈ words k l) : w.length = k := by
  unfold words at h
  obtain ⟨i, hi, rfl⟩ := List.mem_map.1 h
  rw [List.mem_range] at hi
  rw [List.length_take, List.length_drop]
  have h1 : (i + 1) * k ≤ l.length / k * k := Nat.mul_le_mul_right _ hi
  have h2 := Nat.div_mul_le_self l.length k
  rw [Nat.add_mul, Nat.one_mul] at h1
  omega

theorem chunk_ofBytes_typed {D : Nat} {b : List Byte} (h : b.length = 8 * (D + 2)) :
    IsChunk D (Chunk.ofBytes b) := by
  have hw : ((words 8 b).map leVal).length = D + 2 := by
    simp [words, h]
  have hv : ∀ x ∈ (words 8 b).map leVal, FitsU64 x := by
    intro x hx
    obtain ⟨w, hw, rfl⟩ := List.mem_map.1 hx
    have := leVal_lt w
    rw [words_mem hw] at this
    unfold FitsU64; omega
  unfold Chunk.ofBytes
  generalize (words 8 b).map leVal = ws at hw hv
  match ws, hw with
  | a :: s :: o, hw =>
    exact ⟨hv a (by simp), hv s (by simp), by simpa using hw, fun x hx => hv x (by simpa using .inr (.inr hx))⟩

theorem yields_chunks (D : Nat) : Yields (decChunks D) fun l =>
    (∀ c ∈ l, IsChunk D c) ∧ FitsU64 (l.length * (8 * (D + 2))) :=
  yields_bytes.bind fun b hb => by
    by_cases h8 : b.length % 8 = 0
    · by_cases hD : b.length / 8 % (D + 2) = 0
      · simp only [h8, hD, if_true]
        refine Yields.done ⟨?_, ?_⟩
        · intro c hc
          obtain ⟨w, hw, rfl⟩ := List.mem_map.1 hc
          exact chunk_ofBytes_typed (words_mem hw)
        · rw [List.length_map]
          unfold words
          rw [List.length_map, List.length_range]
          have := Nat.div_mul_le_self b.length (8 * (D + 2))
          unfold FitsU64 at *
          omega
      · simp only [h8, hD, if_true, if_false]; exact Yields.fault
    · simp only [h8, if_false]; exact Yields.fault

theorem yields_datatype : Yields decDatatype fun t => FitsU64 t.dsize :=
  (yields_int 4).bind fun t _ => by
    by_cases h : t < 4
    · simp only [h, if_true]
      refine yields_u64.bind fun n hn => ?_
      refine Yields.done (x := if t = 0 then Datatype.uint n else if t = 1 then .int n
        else if t = 2 then .float n else .custom n) ?_
      split
      · exact hn
      · split
        · exact hn
        · split <;> exact hn
    · simp only [h, if_false]; exact Yields.fail

theorem yields_order : Yields decOrder fun _ => True :=
  (yields_int 4).bind fun t _ => by
    by_cases h : t < 3
    · simp only [h, if_true]; exact Yields.done trivial
    · simp only [h, if_false]; exact Yields.fail

theorem yields_bool : Yields decBool fun _ => True :=
  (yields_int 1).bind fun t _ => by
    by_cases h0 : t = 0
    · simp only [h0, if_true]; exact Yields.done trivial
    · by_cases h1 : t = 1
      · simp only [h1, Nat.one_ne_zero, if_true, if_false]; exact Yields.done trivial
      · simp only [h0, h1, if_false]; exact Yields.fail

theorem yields_dataset {D : Nat} (hD : D < 10) : Yields (decDataset D) fun ds =>
    ds.shape.length = D ∧ IsDataset ds := by
  refine yields_datatype.bind fun t ht => ?_
  refine yields_u64.bind fun sz hsz => ?_
  refine yields_order.bind fun o _ => ?_
  refine (yields_chunks D).bind fun ch hch => ?_
  refine (yields_arr D).bind fun s hs => ?_
  refine (yields_arr D).bind fun cs hcs => ?_
  refine (yields_sr D).bind fun sr hsr => ?_
  refine (yields_arr D).bind fun a1 h1 => ?_
  refine (yields_arr D).bind fun a2 h2 => ?_
  refine (yields_arr D).bind fun a3 h3 => ?_
  refine yields_bool.bind fun b _ => ?_
  refine (yields_option (yields_int 1)).bind fun z hz => ?_
  refine Yields.done ⟨hs.1, ?_⟩
  obtain ⟨rfl, -⟩ := id hs
  exact ⟨by simp only; omega, ht, hsz, hch.1, hch.2, hs, hcs, hsr.1, hsr.2, h1, h2, h3,
    fun q hq => by have := hz q hq; omega⟩

theorem yields_datasetD : Yields decDatasetD IsDataset :=
  (yields_int 4).bind fun D _ => by
    by_cases h : D < 10
    · simp only [h, if_true]
      intro bs x r hx
      obtain ⟨h1, h2⟩ := yields_dataset h bs x r hx
      exact ⟨h1.2, h2⟩
    · simp only [h, if_false]; exact Yields.fail

theorem mapInsert_mem {α : Type} {m : List (Name × α)} {k : Name} {a : α} {e : Name × α}
    (h : e ∈ mapInsert m k a) : e = (k, a) ∨ e ∈ m := by
  induction m with
  | nil => simpa [mapInsert] using h
  | cons q m ih =>
    obtain ⟨q, b⟩ := q
    unfold mapInsert at h
    split at h
    · rcases List.mem_cons.1 h with h | h
      · exact .inl h
      · exact .inr (by simp [h])
    · rcases List.mem_cons.1 h with h | h
      · exact .inr (by simp [h])
      · rcases ih h with h | h
        · exact .inl h
        · exact .inr (by simp [h])

theorem mapInsert_keys {α : Type} (m : List (Name × α)) (k : Name) (a : α) :
    (mapInsert m k a).map Prod.fst =
      if k ∈ m.map Prod.fst then m.map Prod.fst else m.map Prod.fst ++ [k] := by
  induction m with
  | nil => simp [mapInsert]
  | cons e m ih =>
    obtain ⟨q, b⟩ := e
    unfold mapInsert
    by_cases hq : q = k
    · subst hq; simp
    · rw [if_neg hq, List.map_cons, ih]
      have : k ≠ q := fun h => hq h.symm
      by_cases hk : k ∈ m.map Prod.fst
      · simp [hk]
      · simp [hk, this]

/-- A collected map has each key once, and only entries that were inserted. -/
theorem mapCollect_typed {α : Type} (l : List (Name × α)) :
    ((mapCollect l).map Prod.fst).Nodup ∧ (mapCollect l).length ≤ l.length ∧
      ∀ e ∈ mapCollect l, e ∈ l := by
  have key : ∀ (l m : List (Name × α)), (m.map Prod.fst).Nodup →
      ((l.foldl (fun m e => mapInsert m e.1 e.2) m).map Prod.fst).Nodup ∧
      (l.foldl (fun m e => mapInsert m e.1 e.2) m).length ≤ m.length + l.length ∧
      ∀ e ∈ l.foldl (fun m e => mapInsert m e.1 e.2) m, e ∈ m ∨ e ∈ l := by
    intro l
    induction l with
    | nil => intro m hm; exact ⟨hm, by simp, fun e he => .inl he⟩
    | cons q l ih =>
      intro m hm
      have hk := mapInsert_keys m q.1 q.2
      have hn : ((mapInsert m q.1 q.2).map Prod.fst).Nodup := by
        rw [hk]
        split
        · exact hm
        · rename_i h
          rw [List.nodup_append]
          refine ⟨hm, by simp, ?_⟩
          intro a ha b hb
          rw [List.mem_singleton] at hb
          subst hb
          rintro rfl
          exact h ha
      have hl : (mapInsert m q.1 q.2).length ≤ m.length + 1 := by
        have := congrArg List.length hk
        rw [List.length_map] at this
        rw [this]
        split <;> simp
      obtain ⟨h1, h2, h3⟩ := ih _ hn
      refine ⟨h1, by simp only [List.foldl_cons, List.length_cons]; omega, fun e he => ?_⟩
      rcases h3 e he with h | h
      · rcases mapInsert_mem h with h | h
        · exact .inr (by simp [h])
        · exact .inl h
      · exact .inr (by simp [h])
  obtain ⟨h1, h2, h3⟩ := key l [] (by simp)
  exact ⟨h1, by simpa [mapCollect] using h2, fun e he => by simpa using h3 e he⟩

theorem yields_map {α : Type} {d : Dec α} {P : α → Prop} (h : Yields d P) :
    Yields (decMap d) fun m => FitsU64 m.length ∧ (m.map Prod.fst).Nodup ∧ ∀ e ∈ m, IsStr e.1 ∧ P e.2 :=
  yields_u64.bind fun n hn => by
    have he : Yields (decEntry d) fun e : Name × α => IsStr e.1 ∧ P e.2 :=
      yields_str.bind fun s hs => h.bind fun a ha => Yields.done ⟨hs, ha⟩
    refine (yields_n he n).bind fun l hl => Yields.done ?_
    obtain ⟨h1, h2, h3⟩ := mapCollect_typed l
    exact ⟨by unfold FitsU64 at *; omega, h1, fun e he => hl.2 e (h3 e he)⟩

theorem yields_group (depth : Nat) : Yields (decGroup depth) fun g =>
    IsGroup g ∧ AllPaths (fun p => pathUtf8 p = true) g := by
  induction depth with
  | zero => intro bs x r h; simp [decGroup] at h
  | succ depth ih =>
    refine (yields_option yields_str).bind fun p hp => ?_
    refine (yields_map yields_datasetD).bind fun ds hds => ?_
    refine (yields_map ih).bind fun gs hgs => Yields.done ⟨?_, ?_⟩
    · exact .mk (fun q hq => (hp q hq).2) hds.1 hds.2.1 hds.2.2 hgs.1 hgs.2.1 (fun e he => (hgs.2.2 e he).1)
        fun e he => (hgs.2.2 e he).2.1
    · refine .mk ?_ fun e he => (hgs.2.2 e he).2.2
      cases p with
      | none => rfl
      | some q => exact utf8_iff.2 (hp q rfl).1

/-! ## The bound on the depth does not matter -/

theorem decN_congr {α : Type} {d d' : Dec α} {P : α → Prop} (h : Yields d P) {N : Nat}
    (he : ∀ bs, bs.length ≤ N → d bs = d' bs) (n : Nat) {bs : List Byte} (hb : bs.length ≤ N) :
    decN d n bs = decN d' n bs := by
  induction n generalizing bs with
  | zero => rfl
  | succ n ih =>
    simp only [decN]
    rw [← he bs hb]
    cases hd : d bs with
    | ok r =>
      obtain ⟨a, bs'⟩ := r
      have := (h bs a bs' hd).2
      simp only [ok_bind]
      rw [ih (by omega)]
    | err e => rfl
    | «panic» e => rfl
    | ub => rfl
    | diverge => rfl

theorem decMap_congr {α : Type} {d d' : Dec α} {P : α → Prop} (h : Yields d P) {N : Nat}
    (he : ∀ bs, bs.length ≤ N → d bs = d' bs) {bs : List Byte} (hb : bs.length ≤ N) :
    decMap d bs = decMap d' bs := by
  simp only [decMap]
  cases hn : decU64 bs with
  | ok r =>
    obtain ⟨n, bs'⟩ := r
    have := (yields_u64 bs n bs' hn).2
    have hentry : Yields (decEntry d) fun e : Name × α => IsStr e.1 ∧ P e.2 :=
      yields_str.bind fun s hs => h.bind fun a ha => Yields.done ⟨hs, ha⟩
    simp only [ok_bind]
    rw [decN_congr (d' := decEntry d') hentry (N := N) ?_ n (by omega)]
    intro cs hcs
    simp only [decEntry]
    cases hs : decStr cs with
    | ok r =>
      obtain ⟨s, cs'⟩ := r
      have := (yields_str cs s cs' hs).2
      simp only [ok_bind]
      rw [he cs' (by omega)]
    | err e => rfl
    | «panic» e => rfl
    | ub => rfl
    | diverge => rfl
  | err e => rfl
  | «panic» e => rfl
  | ub => rfl
  | diverge => rfl

theorem decOption_shorter {α : Type} {d : Dec α} {P : α → Prop} (h : Yields d P) {bs r : List Byte}
    {x : Option α} (hx : decOption d bs = ok (x, r)) : r.length < bs.length := by
  unfold decOption at hx
  obtain ⟨⟨t, bs'⟩, h1, h2⟩ := bind_eq_ok.1 hx
  have hlen : bs'.length < bs.length := by
    unfold decInt decTake at h1
    split at h1
    · simp at h1
    · simp only [ok_bind, Outcome.ok.injEq, Prod.mk.injEq] at h1
      rw [← h1.2, List.length_drop]; omega
  simp only at h2
  split at h2
  · simp only [Outcome.ok.injEq, Prod.mk.injEq] at h2
    rw [← h2.2]; exact hlen
  · split at h2
    · obtain ⟨⟨a, bs''⟩, h3, h4⟩ := bind_eq_ok.1 h2
      have := (h bs' a bs'' h3).2
      simp only [Outcome.ok.injEq, Prod.mk.injEq] at h4
      rw [← h4.2]; omega
    · simp at h2

/-- Any bound on the depth that is larger than the input gives the same result. -/
theorem decGroup_depth {m n : Nat} {bs : List Byte} (hm : bs.length < m) (hn : bs.length < n) :
    decGroup m bs = decGroup n bs := by
  induction m generalizing n bs with
  | zero => omega
  | succ m ih =>
    obtain ⟨n, rfl⟩ : ∃ n', n = n' + 1 := ⟨n - 1, by omega⟩
    simp only [decGroup]
    cases hp : decOption decStr bs with
    | ok r =>
      obtain ⟨p, bs1⟩ := r
      have h1 := decOption_shorter yields_str hp
      simp only [ok_bind]
      cases hd : decMap decDatasetD bs1 with
      | ok r =>
        obtain ⟨ds, bs2⟩ := r
        have h2 := (yields_map yields_datasetD bs1 ds bs2 hd).2
        simp only [ok_bind]
        rw [decMap_congr (yields_group m) (d' := decGroup n) (N := bs2.length) ?_ (Nat.le_refl _)]
        intro cs hcs
        exact ih (by omega) (by omega)
      | err e => rfl
      | «panic» e => rfl
      | ub => rfl
      | diverge => rfl
    | err e => rfl
    | «panic» e => rfl
    | ub => rfl
    | diverge => rfl

/-! ## Outcomes of decoding -/

/-- A value, an error, or one of the three panics. -/
def Orderly {α : Type} (x : Outcome α) : Prop :=
  match x with
  | ok _ => True
  | err e => e = .decode
  | .panic f => f = .unwrap ∨ f = .assertion ∨ f = .divZero
  | ub => False
  | diverge => False

theorem Orderly.bind {α β : Type} {x : Outcome α} {f : α → Outcome β} (hx : Orderly x)
    (hf : ∀ a, x = ok a → Orderly (f a)) : Orderly (x >>= f) := by
  cases x with
  | ok a => exact hf a rfl
  | err e => exact hx
  | «panic» e => exact hx
  | ub => exact hx
  | diverge => exact hx

theorem orderly_take (k : Nat) (bs : List Byte) : Orderly (decTake k bs) := by
  unfold decTake; split <;> trivial

theorem orderly_int (k : Nat) (bs : List Byte) : Orderly (decInt k bs) :=
  (orderly_take k bs).bind fun _ _ => trivial

theorem orderly_bytes (bs : List Byte) : Orderly (decBytes bs) :=
  (orderly_int 8 bs).bind fun _ _ => orderly_take _ _

theorem orderly_str (bs : List Byte) : Orderly (decStr bs) :=
  (orderly_bytes bs).bind fun a _ => by
    obtain ⟨s, r⟩ := a
    simp only; split <;> trivial

theorem orderly_option {α : Type} {d : Dec α} (h : ∀ bs, Orderly (d bs)) (bs : List Byte) :
    Orderly (decOption d bs) :=
  (orderly_int 1 bs).bind fun a _ => by
    obtain ⟨t, r⟩ := a
    simp only
    split
    · trivial
    · split
      · exact (h r).bind fun _ _ => trivial
      · trivial

theorem orderly_n {α : Type} {d : Dec α} {P : α → Prop} (hy : Yields d P) {N : Nat}
    (h : ∀ bs, bs.length ≤ N → Orderly (d bs)) (n : Nat) {bs : List Byte} (hb : bs.length ≤ N) :
    Orderly (decN d n bs) := by
  induction n generalizing bs with
  | zero => trivial
  | succ n ih =>
    refine (h bs hb).bind fun a ha => ?_
    obtain ⟨a, r⟩ := a
    have := (hy bs a r ha).2
    exact (ih (by omega)).bind fun _ _ => trivial

theorem orderly_vec (bs : List Byte) : Orderly (decVec bs) :=
  (orderly_int 8 bs).bind fun a _ => orderly_n yields_u64 (N := a.2.length) (fun cs _ => orderly_int 8 cs) _ (Nat.le_refl _)

theorem orderly_arr (D : Nat) (bs : List Byte) : Orderly (decArr D bs) :=
  (orderly_vec bs).bind fun _ _ => trivial

theorem orderly_sr (D : Nat) (bs : List Byte) : Orderly (decSr D bs) :=
  (orderly_vec bs).bind fun a _ => by
    obtain ⟨v, r⟩ := a
    refine Orderly.bind ?_ fun _ _ => Orderly.bind ?_ fun _ _ => trivial
    · unfold ensure; split <;> trivial
    · unfold strengthReduce; split
      · trivial
      · exact .inr (.inr rfl)

theorem orderly_chunks (D : Nat) (bs : List Byte) : Orderly (decChunks D bs) :=
  (orderly_bytes bs).bind fun a _ => by
    obtain ⟨v, r⟩ := a
    simp only
    split
    · split
      · trivial
      · exact .inr (.inl rfl)
    · exact .inl rfl

theorem orderly_datatype (bs : List Byte) : Orderly (decDatatype bs) :=
  (orderly_int 4 bs).bind fun a _ => by
    obtain ⟨t, r⟩ := a
    simp only
    split
    · exact (orderly_int 8 r).bind fun _ _ => trivial
    · trivial

theorem orderly_order (bs : List Byte) : Orderly (decOrder bs) :=
  (orderly_int 4 bs).bind fun a _ => by
    obtain ⟨t, r⟩ := a
    simp only
    split <;> trivial

theorem orderly_bool (bs : List Byte) : Orderly (decBool bs) :=
  (orderly_int 1 bs).bind fun a _ => by
    obtain ⟨t, r⟩ := a
    simp only
    split
    · trivial
    · split <;> trivial

theorem orderly_datasetD (bs : List Byte) : Orderly (decDatasetD bs) :=
  (orderly_int 4 bs).bind fun a _ => by
    obtain ⟨D, r⟩ := a
    simp only
    split
    · refine (orderly_datatype r).bind fun a _ => ?_
      refine (orderly_int 8 _).bind fun a _ => ?_
      refine (orderly_order _).bind fun a _ => ?_
      refine (orderly_chunks _ _).bind fun a _ => ?_
      refine (orderly_arr _ _).bind fun a _ => ?_
      refine (orderly_arr _ _).bind fun a _ => ?_
      refine (orderly_sr _ _).bind fun a _ => ?_
      refine (orderly_arr _ _).bind fun a _ => ?_
      refine (orderly_arr _ _).bind fun a _ => ?_
      refine (orderly_arr _ _).bind fun a _ => ?_
      refine (orderly_bool _).bind fun a _ => ?_
      exact (orderly_option (orderly_int 1) _).bind fun a _ => trivial
    · trivial

theorem orderly_map {α : Type} {d : Dec α} {P : α → Prop} (hy : Yields d P) {bs : List Byte}
    (h : ∀ cs, cs.length ≤ bs.length → Orderly (d cs)) : Orderly (decMap d bs) := by
  have he : Yields (decEntry d) fun e : Name × α => IsStr e.1 ∧ P e.2 :=
    yields_str.bind fun s hs => hy.bind fun a ha => Yields.done ⟨hs, ha⟩
  refine (orderly_int 8 bs).bind fun a ha => ?_
  obtain ⟨n, r⟩ := a
  have := (yields_int 8 bs n r ha).2
  refine Orderly.bind (orderly_n he (N := r.length) (fun cs hcs => ?_) n (Nat.le_refl _)) fun _ _ => trivial
  refine (orderly_str cs).bind fun b hb => ?_
  obtain ⟨s, r'⟩ := b
  have := (yields_str cs s r' hb).2
  exact (h r' (by omega)).bind fun _ _ => trivial

theorem orderly_group {depth : Nat} {bs : List Byte} (h : bs.length < depth) : Orderly (decGroup depth bs) := by
  induction depth generalizing bs with
  | zero => omega
  | succ depth ih =>
    refine (orderly_option orderly_str bs).bind fun a ha => ?_
    obtain ⟨p, r⟩ := a
    have h1 := decOption_shorter yields_str ha
    refine (orderly_map yields_datasetD fun cs _ => orderly_datasetD cs).bind fun b hb => ?_
    obtain ⟨ds, r2⟩ := b
    have h2 := (yields_map yields_datasetD r ds r2 hb).2
    exact (orderly_map (yields_group depth) fun cs hcs => ih (by have : cs.length ≤ r2.length := hcs; omega)).bind fun _ _ => trivial

end Hidefix.Proofs
