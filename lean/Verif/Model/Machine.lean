/-!
# Machine model: outcomes of a Rust call, 64-bit arithmetic, build profiles

`usize` and `u64` are both 64 bits wide (64-bit target). Values are natural numbers; every
arithmetic operation that can leave the 64-bit range goes through `add64`/`sub64`/`mul64`.
-/

namespace Hidefix

/-- `2^64`, the number of values of `u64`/`usize`. -/
def W : Nat := 18446744073709551616

/-- Cargo build profile. `debug` (the default for `cargo build`/`cargo test`): overflow checks and
`debug_assert!` are on. `release`: arithmetic wraps, `debug_assert!` is not evaluated. -/
inductive Profile where
  | debug
  | release
  deriving DecidableEq, Repr

/-- Why a call panicked. -/
inductive Fault where
  | overflow       -- arithmetic overflow (debug profile only)
  | debugAssert    -- `debug_assert!` (debug profile only)
  | assertion      -- `assert!`
  | bounds         -- slice/array index out of range, slice range out of range
  | divZero        -- division by zero, `StrengthReducedU64::new(0)`
  | unwrap         -- `unwrap`/`expect` on `None`/`Err`
  | capacity       -- allocation larger than `isize::MAX` bytes
  | unimplemented  -- `unimplemented!()` / `panic!(..)`
  deriving DecidableEq, Repr

/-- Errors (`anyhow::Error`), classified by their origin. -/
inductive Err where
  | rank           -- "Extents had length .. but dimension length is .."
  | capacity       -- "destination buffer has insufficient capacity"
  | io             -- file could not be opened / seeked / read
  | decompress     -- "Could not decompress chunk"
  | datatype       -- "size of datatype .. not multiple of target"
  | alignment      -- "alignment of datatype .."
  | cast           -- `byte_slice_cast` error: length not a multiple of the element size
  | http           -- "range request failed", "too few bytes", transport error
  | selection      -- unsupported selection syntax
  | unsupported    -- unsupported filter / layout / rank at indexing
  | chunkCount     -- "unexpected number of chunks given dataset size"
  | layout         -- "chunk does not contain its offset"
  | decode         -- deserialization error
  | missing        -- "missing path", "dataset does not exist"
  deriving DecidableEq, Repr

/-- Outcome of a Rust call: a value, an error, a panic, undefined behaviour, or no termination. -/
inductive Outcome (α : Type) where
  | ok (a : α)
  | err (e : Err)
  | panic (f : Fault)
  | ub
  | diverge
  deriving DecidableEq, Repr

namespace Outcome

/-- Sequencing (`?`-operator and ordinary statement order). -/
def bind {α β : Type} : Outcome α → (α → Outcome β) → Outcome β
  | ok a, f => f a
  | err e, _ => err e
  | panic x, _ => panic x
  | ub, _ => ub
  | diverge, _ => diverge

instance : Monad Outcome where
  pure := ok
  bind := Outcome.bind

@[simp] theorem pure_eq {α : Type} (a : α) : (pure a : Outcome α) = ok a := rfl
@[simp] theorem ok_bind {α β : Type} (a : α) (f : α → Outcome β) : (ok a >>= f) = f a := rfl
@[simp] theorem err_bind {α β : Type} (e : Err) (f : α → Outcome β) :
    ((err e : Outcome α) >>= f) = err e := rfl
@[simp] theorem panic_bind {α β : Type} (e : Fault) (f : α → Outcome β) :
    ((panic e : Outcome α) >>= f) = panic e := rfl
@[simp] theorem ub_bind {α β : Type} (f : α → Outcome β) : ((ub : Outcome α) >>= f) = ub := rfl
@[simp] theorem diverge_bind {α β : Type} (f : α → Outcome β) :
    ((diverge : Outcome α) >>= f) = diverge := rfl

/-- Inversion of a successful sequence. -/
theorem bind_eq_ok {α β : Type} {x : Outcome α} {f : α → Outcome β} {b : β} :
    (x >>= f) = ok b ↔ ∃ a, x = ok a ∧ f a = ok b := by
  cases x <;> simp

theorem bind_assoc {α β γ : Type} (x : Outcome α) (f : α → Outcome β) (g : β → Outcome γ) :
    ((x >>= f) >>= g) = (x >>= fun a => f a >>= g) := by
  cases x <;> simp

@[simp] theorem bind_pure {α : Type} (x : Outcome α) : (x >>= fun a => ok a) = x := by
  cases x <;> simp

instance : LawfulMonad Outcome := LawfulMonad.mk'
  (id_map := by intro α x; cases x <;> rfl)
  (pure_bind := by intros; rfl)
  (bind_assoc := by intro α β γ x f g; cases x <;> rfl)

end Outcome

open Outcome

/-- `a + b` on `u64`/`usize`. -/
def add64 (p : Profile) (a b : Nat) : Outcome Nat :=
  if a + b < W then ok (a + b)
  else match p with
    | .debug => panic .overflow
    | .release => ok ((a + b) % W)

/-- `a - b` on `u64`/`usize`. -/
def sub64 (p : Profile) (a b : Nat) : Outcome Nat :=
  if b ≤ a then ok (a - b)
  else match p with
    | .debug => panic .overflow
    | .release => ok ((a + W - b) % W)

/-- `a * b` on `u64`/`usize`. -/
def mul64 (p : Profile) (a b : Nat) : Outcome Nat :=
  if a * b < W then ok (a * b)
  else match p with
    | .debug => panic .overflow
    | .release => ok ((a * b) % W)

/-- `debug_assert!(b)`. -/
def debugAssert (p : Profile) (b : Bool) : Outcome Unit :=
  match p, b with
  | .debug, false => panic .debugAssert
  | _, _ => ok ()

/-- `assert!(b)`. -/
def assertP (b : Bool) : Outcome Unit :=
  if b then ok () else panic .assertion

/-- `anyhow::ensure!(b, ..)`. -/
def ensure (b : Bool) (e : Err) : Outcome Unit :=
  if b then ok () else err e

/-- `iter().product::<u64>()` (`core::iter::Product` for integers: a left fold of `*` from `1`,
inheriting the caller's overflow checks). -/
def product64 (p : Profile) (l : List Nat) : Outcome Nat :=
  l.foldlM (fun acc c => mul64 p acc c) 1

/-- Index into a slice: panics when out of range. -/
def index {α : Type} (l : List α) (i : Nat) : Outcome α :=
  match l[i]? with
  | some a => ok a
  | none => panic .bounds

/-- `vec![0u8; n]` / `Vec::with_capacity(n)` for `n` bytes: the allocation panics above
`isize::MAX` bytes. (Running out of memory aborts the process and is not modelled.) -/
def allocOk (n : Nat) : Outcome Unit :=
  if n < 9223372036854775808 then ok () else panic .capacity

@[simp] theorem add64_of_lt {p : Profile} {a b : Nat} (h : a + b < W) :
    add64 p a b = ok (a + b) := by simp [add64, h]
@[simp] theorem sub64_of_le {p : Profile} {a b : Nat} (h : b ≤ a) :
    sub64 p a b = ok (a - b) := by simp [sub64, h]
@[simp] theorem mul64_of_lt {p : Profile} {a b : Nat} (h : a * b < W) :
    mul64 p a b = ok (a * b) := by simp [mul64, h]
@[simp] theorem debugAssert_true {p : Profile} : debugAssert p true = ok () := by
  cases p <;> rfl
@[simp] theorem assert_true : assertP true = ok () := rfl
@[simp] theorem ensure_true {e : Err} : ensure true e = ok () := rfl

end Hidefix
