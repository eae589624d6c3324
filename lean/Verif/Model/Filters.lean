import Verif.Model.Dataset

/-!
# `src/filters/`: shuffle, byte order, XDR, decompression

Typed slices (`&[T]`) are modelled by their bytes; `wsz` is `size_of::<T>()`.
-/

namespace Hidefix
open Outcome

abbrev Byte := UInt8

/-! ## Shuffle -/

/-- `*dest.get_unchecked_mut(i) = *src.get_unchecked(j)`: undefined behaviour when an index is out
of range (src/filters/shuffle.rs:44-46, 68-70, 93-95). -/
def copyByte (src dest : List Byte) (i j : Nat) : Outcome (List Byte) :=
  match src[j]? with
  | some b => if i < dest.length then ok (dest.set i b) else ub
  | none => ub

/-- The double loop `for i in 0..a { for j in 0..b { dest[to i j] = src[from i j] } }`. -/
def copyLoop (a b : Nat) (to from_ : Nat → Nat → Nat) (src dest : List Byte) : Outcome (List Byte) :=
  ((List.range a).flatMap fun i => (List.range b).map fun j => (i, j)).foldlM
    (fun d ij => copyByte src d (to ij.1 ij.2) (from_ ij.1 ij.2)) dest

/-- `shuffle` (src/filters/shuffle.rs:29-49); `wsz = size_of::<T>() > 0`, `src.len()` words. -/
def shuffle (wsz : Nat) (src dest : List Byte) : Outcome (List Byte) := do
  let sz := src.length / wsz
  assertP (dest.length == src.length)
  copyLoop wsz sz (fun i j => i * sz + j) (fun i j => j * wsz + i) src dest

/-- `unshuffle` (src/filters/shuffle.rs:53-73); `wsz = size_of::<D>() > 0`, `dest.len()` words. -/
def unshuffle (wsz : Nat) (src dest : List Byte) : Outcome (List Byte) := do
  let sz := dest.length / wsz
  assertP (dest.length == src.length)
  copyLoop wsz sz (fun i j => j * wsz + i) (fun i j => i * sz + j) src dest

/-- `unshuffle_structured::<N>` (src/filters/shuffle.rs:80-98). -/
def unshuffleStructured (N : Nat) (src dest : List Byte) : Outcome (List Byte) := do
  assertP (src.length == dest.length)
  if N = 0 then panic .divZero
  else do
    assertP (src.length % N == 0)
    let n := src.length / N
    copyLoop n N (fun j i => j * N + i) (fun j i => i * n + j) src dest

/-- `unshuffle_sized` (src/filters/shuffle.rs:102-127). -/
def unshuffleSized (src : List Byte) (sz : Nat) : Outcome (List Byte) :=
  let dest : List Byte := List.replicate src.length 0
  match sz with
  | 1 => ok src
  | 2 => unshuffleStructured 2 src dest
  | 4 => unshuffleStructured 4 src dest
  | 8 => unshuffleStructured 8 src dest
  | _ => panic .unimplemented

/-! ## Byte order -/

/-- Endianness of the host (`cfg!(target_endian = "big")`). -/
inductive Host where
  | little
  | big
  deriving DecidableEq, Repr

/-- `Order::native` (src/filters/byteorder.rs:11-17). -/
def Host.native : Host → ByteOrder
  | .big => .BE
  | .little => .LE

/-- The types with a `Swap` implementation (src/filters/byteorder.rs:46-104). -/
inductive Prim where
  | u8 | u16 | u32 | u64 | i8 | i16 | i32 | i64 | f32 | f64
  deriving DecidableEq, Repr

/-- `size_of::<T>()` (which is also the alignment on the 64-bit targets considered). -/
def Prim.size : Prim → Nat
  | .u8 | .i8 => 1
  | .u16 | .i16 => 2
  | .u32 | .i32 | .f32 => 4
  | .u64 | .i64 | .f64 => 8

def Prim.isFloat : Prim → Bool
  | .f32 | .f64 => true
  | _ => false

def Prim.isSigned : Prim → Bool
  | .i8 | .i16 | .i32 | .i64 => true
  | _ => false

/-- `Swap::swap` on the bytes of a value (src/filters/byteorder.rs:46-104): `swap_bytes` for
integers; for floats `to_bits().to_be()`, which swaps on a little-endian host and does nothing on a
big-endian one. -/
def swapWord (h : Host) (t : Prim) (w : List Byte) : List Byte :=
  if t.isFloat then
    match h with
    | .little => w.reverse
    | .big => w
  else w.reverse

/-- `ToNative` for a single value (src/filters/byteorder.rs:106-125): `unimplemented!()` for an
unknown order. -/
def toNativeOne (h : Host) (t : Prim) (o : ByteOrder) (w : List Byte) : Outcome (List Byte) :=
  match h, o with
  | .big, .BE => ok w
  | .big, .LE => ok (swapWord h t w)
  | .little, .BE => ok (swapWord h t w)
  | .little, .LE => ok w
  | _, .Unknown => panic .unimplemented

/-- `l` cut into words of `k` bytes (an incomplete tail is dropped). -/
def words (k : Nat) (l : List Byte) : List (List Byte) :=
  (List.range (l.length / k)).map fun i => (l.drop (i * k)).take k

/-- `ToNative` for a slice (src/filters/byteorder.rs:127-154), on its bytes. -/
def toNativeSlice (h : Host) (t : Prim) (o : ByteOrder) (l : List Byte) : List Byte :=
  match h, o with
  | .big, .BE => l
  | .big, .LE => ((words t.size l).map (swapWord h t)).flatten
  | .little, .BE => ((words t.size l).map (swapWord h t)).flatten
  | .little, .LE => l
  | _, .Unknown => l

/-- `ToBigEndian` for a single value (src/filters/byteorder.rs:156-169). -/
def toBigEOne (h : Host) (t : Prim) (o : ByteOrder) (w : List Byte) : List Byte :=
  match o with
  | .BE => w
  | .LE => swapWord h t w
  | .Unknown => w

/-- `ToBigEndian` for a slice (src/filters/byteorder.rs:171-186). -/
def toBigESlice (h : Host) (t : Prim) (o : ByteOrder) (l : List Byte) : List Byte :=
  match o with
  | .BE => l
  | .LE => ((words t.size l).map (swapWord h t)).flatten
  | .Unknown => l

/-- `buf.as_mut_slice_of::<T>()` (crate byte-slice-cast): an error unless the length is a multiple
of the size. (Its alignment check passes for the heap buffers it is used on.) -/
def castOk (t : Prim) (l : List Byte) : Outcome Unit := ensure (l.length % t.size == 0) .cast

/-- `to_big_e_sized` (src/filters/byteorder.rs:188-215). -/
def toBigESized (h : Host) (l : List Byte) (o : ByteOrder) (dsz : Nat) : Outcome (List Byte) :=
  if o = .LE then
    match dsz with
    | 1 => ok l
    | 2 => do castOk .u16 l; ok (toBigESlice h .u16 o l)
    | 4 => do castOk .u32 l; ok (toBigESlice h .u32 o l)
    | 8 => do castOk .u64 l; ok (toBigESlice h .u64 o l)
    | _ => panic .unimplemented
  else ok l

/-! ## XDR -/

/-- `xdr_factor` (src/filters/xdr.rs:6-19). -/
def xdrFactor (t : Datatype) : Outcome Nat :=
  match t with
  | .custom _ => ok 1
  | _ => if t.dsize < 4 then (if t.dsize = 0 then panic .divZero else ok (4 / t.dsize)) else ok 1

/-- The number denoted by big-endian bytes. -/
def beVal (w : List Byte) : Nat := w.foldl (fun acc b => acc * 256 + b.toNat) 0

/-- The unsigned number a word of memory holds on the host. -/
def hostVal (h : Host) (w : List Byte) : Nat :=
  match h with
  | .big => beVal w
  | .little => beVal w.reverse

/-- The `k` big-endian bytes of a number modulo `256^k`. -/
def beBytes : Nat → Nat → List Byte
  | 0, _ => []
  | k + 1, v => beBytes k (v / 256) ++ [UInt8.ofNat (v % 256)]

/-- How the host stores a number in a word of `k` bytes. -/
def hostBytes (h : Host) (k v : Nat) : List Byte :=
  match h with
  | .big => beBytes k v
  | .little => (beBytes k v).reverse

/-- Sign extension of a `k`-byte two's complement number to 4 bytes. -/
def signExtend (k v : Nat) : Nat := if v < 256 ^ k / 2 then v else v + 256 ^ 4 - 256 ^ k

/-- `Into::<D>::into(*s)` from an 8/16-bit integer to the 32-bit integer of the same signedness
(src/filters/xdr.rs:38), on unsigned representations. -/
def widen (t : Prim) (v : Nat) : Nat := if t.isSigned then signExtend t.size v else v

/-- The body of the loop of `xdr_cast_slice` (src/filters/xdr.rs:36-40). -/
def xdrWord (h : Host) (t : Prim) (o : ByteOrder) (w : List Byte) : Outcome (List Byte) := do
  let s ← toNativeOne h t o w
  let d := hostBytes h 4 (widen t (hostVal h s))
  ok (toBigEOne h .u32 h.native d)

/-- `xdr_cast_slice` (src/filters/xdr.rs:22-43) for an 8- or 16-bit source and 32-bit target. -/
def xdrCastSlice (h : Host) (t : Prim) (o : ByteOrder) (src : List Byte) : Outcome (List Byte) := do
  castOk t src
  let ws ← (words t.size src).mapM (xdrWord h t o)
  ok ws.flatten

/-- `xdr` (src/filters/xdr.rs:45-61). -/
def xdr (h : Host) (src : List Byte) (t : Datatype) (o : ByteOrder) : Outcome (List Byte) :=
  match t with
  | .custom _ => ok src
  | .uint 1 => xdrCastSlice h .u8 o src
  | .uint 2 => xdrCastSlice h .u16 o src
  | .int 1 => xdrCastSlice h .i8 o src
  | .int 2 => xdrCastSlice h .i16 o src
  | t => toBigESized h src o t.dsize

/-! ## Decompression -/

/-- `gzip::decompress` (src/filters/gzip.rs:5-9): libdeflate's `zlib_decompress` into a buffer of
fixed size. `inflate` stands for the zlib format: the bytes a stream encodes, `none` for an invalid
stream. The call fails on an invalid stream and when the buffer is too small; a shorter result
leaves the tail of the buffer as it was. -/
def decompress (inflate : List Byte → Option (List Byte)) (c out : List Byte) :
    Outcome (List Byte) :=
  match inflate c with
  | none => err .decompress
  | some d => if d.length ≤ out.length then ok (d ++ out.drop d.length) else err .decompress

/-- `decode_chunk` (src/reader/chunk.rs:38-73). -/
def decodeChunk (p : Profile) (inflate : List Byte → Option (List Byte)) (chunk : List Byte)
    (chunkSz dsz : Nat) (gzipped shuffled : Bool) : Outcome (List Byte) := do
  debugAssert p (decide (dsz < 16))
  let cache ←
    if gzipped then do
      allocOk chunkSz
      decompress inflate chunk (List.replicate chunkSz 0)
    else ok chunk
  if shuffled && decide (1 < dsz) then unshuffleSized cache dsz else ok cache

end Hidefix
