import Verif.Model.Session
import Verif.Props.Unsteady
import Verif.Props.Poll
import Verif.Props.Open

/-!
# Property C71: readers in use at the same time do not disturb each other
-/

set_option autoImplicit false

namespace Hidefix.Props
open Hidefix Hidefix.Spec Hidefix.Proofs Outcome

/-- A handle used alone: the answers to a list of calls. -/
def answers (p : Profile) (rt : Rt) (io : Io) (sort : List GItem → List GItem) :
    Handle → List Call → List Answer
  | _, [] => []
  | h, c :: cs => (h.call p rt io sort c).1 :: answers p rt io sort (h.call p rt io sort c).2 cs

/-- The calls on handle `i`, in order. -/
def callsOn {α : Type} (i : Nat) (cs : List (Nat × α)) : List α :=
  (cs.filter fun e => e.1 = i).map Prod.snd

/-- C71: in any session - any number of readers and streams, calls on them in any order, any state of the
disk at every operation - the answers of each handle are those it gives when the calls on it are all there
are. -/
theorem C71 (p : Profile) (rt : Rt) (io : Io) (sort : List GItem → List GItem) (hs : Nat → Handle)
    (cs : List (Nat × Call)) (i : Nat) :
    callsOn i (session p rt io sort hs cs) = answers p rt io sort (hs i) (callsOn i cs) := by
  induction cs generalizing hs with
  | nil => rfl
  | cons e cs ih =>
    obtain ⟨j, c⟩ := e
    unfold callsOn at ih ⊢
    by_cases hj : j = i
    · subst hj
      simp only [session, List.filter_cons, decide_true, if_true, List.map_cons, answers, ih]
    · have hj' : ¬ i = j := fun h => hj h.symm
      simp only [session, List.filter_cons, hj, decide_false, Bool.false_eq_true, if_false, ih, if_neg hj']

/-- A caching reader's answers: each is that of a reader that has done the reads before. -/
theorem answers_cached {p : Profile} {rt : Rt} {io : Io} {sort : List GItem → List GItem} {ds : Dataset}
    (l : List (Disk × Extents × List Byte)) (rd : CacheReader) :
    answers p rt io sort (.cached ds rd) (l.map fun c => .readTo c.1 c.2.1 c.2.2) =
      (List.range l.length).pmap (fun k (hk : k < l.length) =>
        let r := (afterReadsU p io ds rd (l.take k)).readToU p io l[k].1 ds l[k].2.1 l[k].2.2
        .read r.1 r.2.1) (fun k hk => List.mem_range.1 hk) := by
  apply List.ext_getElem?
  intro n
  induction l generalizing rd n with
  | nil => simp [answers]
  | cons c l ih =>
    simp only [List.map_cons, answers, Handle.call]
    cases n with
    | zero => simp [List.pmap_eq_map_attach, afterReadsU, List.range_succ_eq_map]
    | succ n =>
      rw [List.getElem?_cons_succ, ih]
      by_cases hn : n < l.length
      · simp [List.getElem?_pmap, hn, afterReadsU]
      · simp [List.getElem?_pmap, hn]

/-- C71 and C67 together: `i` is a caching reader of the dataset `ds` in a session in which anything else
may happen. If all disks that its reads meet have the chunks of `ds` as in `file`, or cut off (operations may fail, the
rest of the file may be written to), each of its reads returns what a new reader returns on that file, or
an I/O error. -/
theorem C71_cached {p : Profile} {rt : Rt} {io : Io} {sort : List GItem → List GItem} {hs : Nat → Handle}
    {cs : List (Nat × Call)} {i : Nat} {ds : Dataset} {rd : CacheReader} {file : List Byte}
    (hi : hs i = .cached ds rd) (hdet : AddrDet ds) (hrd : CacheReader.withDataset p ds = ok rd)
    (l : List (Disk × Extents × List Byte))
    (hl : callsOn i cs = l.map fun c => .readTo c.1 c.2.1 c.2.2)
    (hkeep : ∀ c ∈ l, KeepsChunks ds file c.1) (k : Nat) (c : Disk × Extents × List Byte)
    (hk : l[k]? = some c) :
    let fresh := rd.readTo p (withFile io file) file ds c.2.1 c.2.2
    ∃ r d, (callsOn i (session p rt io sort hs cs))[k]? = some (.read r d) ∧
      ((r = fresh.1 ∧ d = fresh.2.1) ∨ r = err .io) := by
  intro fresh
  have hlt : k < l.length := (List.getElem?_eq_some_iff.1 hk).1
  have hck : l[k] = c := (List.getElem?_eq_some_iff.1 hk).2
  rw [C71, hi, hl, answers_cached]
  simp only [List.getElem?_pmap, List.getElem?_range hlt, Option.pmap_some]
  refine ⟨_, _, rfl, ?_⟩
  have := (C67 (io := io) (file := file) hdet hrd (l.take k)
    (fun h hh => hkeep h (List.mem_of_mem_take hh)) c.2.1 c.2.2).2 c.1 (hkeep c (List.mem_of_getElem? hk))
  simp only [hck]
  exact this

theorem answers_stream {p : Profile} {rt : Rt} {io : Io} {sort : List GItem → List GItem} {ds : Dataset}
    {csz : Nat} {factor : Outcome Nat} {conv : List Byte → Outcome (List Byte)}
    (fs : List (Option (List Byte))) (g : Gen) :
    answers p rt io sort (.stream ds csz factor conv g) (fs.map .poll) =
      (g.polls p rt io ds csz factor conv fs).map fun a => .item a.1 := by
  induction fs generalizing g with
  | nil => rfl
  | cons f fs ih => simp only [List.map_cons, answers, Handle.call, Gen.polls, ih]

/-- C71 and C69 together: `i` is a stream in a session in which anything else may happen. As long as its
polls meet the same file, they answer with the items of the stream in order, and then with its end. -/
theorem C71_stream {p : Profile} {rt : Rt} {io : Io} {sort : List GItem → List GItem} {hs : Nat → Handle}
    {cs : List (Nat × Call)} {i : Nat} {ds : Dataset} {ext : Extents} {csz : Nat} {g : Gen}
    {t : Trace (List Byte)} (hn : streamNew p ds ext = ok (csz, g))
    (hi : hs i = .stream ds csz (ok 1) ok g) (n : Nat)
    (hl : callsOn i cs = List.replicate n (.poll io.file)) (ht : streamBytes p rt io ds ext = ok t) :
    callsOn i (session p rt io sort hs cs) = (List.range n).map fun k => .item (answer t k) := by
  have he : List.replicate n (Call.poll io.file) = (List.replicate n io.file).map .poll := by simp
  rw [C71, hi, hl, he, answers_stream]
  obtain ⟨l, h1, h2⟩ := C69_answers ht n
  unfold streamPolls at h1
  rw [hn, ok_bind] at h1
  obtain rfl := Outcome.ok.inj h1
  have := congrArg (List.map Answer.item) h2
  rw [List.map_map, List.map_map] at this
  exact this

/-- Three handles on the demo dataset: a caching reader, a second one, and a stream of all elements. -/
def demoHandles (rd : CacheReader) (csz : Nat) (g : Gen) : Nat → Handle
  | 0 => .cached Demo.ds rd
  | 1 => .cached Demo.ds rd
  | _ => .stream Demo.ds csz (ok 1) ok g

/-- Calls on the three in turn; the disk of the second reader is another one at every operation. -/
def demoCalls : List (Nat × Call) :=
  [(0, .readTo (fun _ => some Demo.file) .all (List.replicate 24 0)), (2, .poll (some Demo.file)),
   (1, .readTo growing topRows (List.replicate 16 0)), (2, .poll (some Demo.file)),
   (0, .readTo growing topRows (List.replicate 16 0)), (1, .readTo flaky .all [])]

/-- The second read of reader 0: what a new reader gives on the file, or an I/O error. -/
example (p : Profile) (rt : Rt) (rd : CacheReader) (csz : Nat) (g : Gen)
    (hrd : CacheReader.withDataset p Demo.ds = ok rd) :
    let fresh := rd.readTo p (withFile Demo.io Demo.file) Demo.file Demo.ds topRows (List.replicate 16 0)
    ∃ r d, (callsOn 0 (session p rt Demo.io sortByAddr (demoHandles rd csz g) demoCalls))[1]? =
        some (.read r d) ∧ ((r = fresh.1 ∧ d = fresh.2.1) ∨ r = err .io) :=
  C71_cached (l := [(fun _ => some Demo.file, .all, List.replicate 24 0), (growing, topRows, List.replicate 16 0)])
    (k := 1) (c := (growing, topRows, List.replicate 16 0)) rfl Demo.addr hrd rfl
    (by
      intro c hc
      rcases List.mem_cons.1 hc with rfl | hc
      · exact fun k f hf => by obtain rfl := Option.some.inj hf; exact fun _ _ => .inl rfl
      · obtain rfl := List.mem_singleton.1 hc; exact growing_keeps) rfl

/-- The stream, polled twice in between: its first two items. -/
example (p : Profile) (rt : Rt) (rd : CacheReader) (csz : Nat) (g : Gen) (t : Trace (List Byte))
    (hn : streamNew p Demo.ds .all = ok (csz, g)) (ht : streamBytes p rt Demo.io Demo.ds .all = ok t) :
    callsOn 2 (session p rt Demo.io sortByAddr (demoHandles rd csz g) demoCalls) =
      [.item (answer t 0), .item (answer t 1)] :=
  C71_stream hn rfl 2 rfl ht

end Hidefix.Props
