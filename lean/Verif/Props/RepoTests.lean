import Verif.Layout.Platform
import Verif.Layout.Macro
import Verif.Props.SameLayout
import Verif.Typenum.Model
import Verif.Num.Model
import Verif.BTree.Model
import Verif.Props.Sov
import Verif.Props.Vec
/-! The assertions of the tests of the repository (stabby/src/tests/layouts.rs and enums.rs, and those of typenum2/unsigned.rs, num.rs,
alloc/collections/arc_btree.rs, alloc/vec.rs and alloc/single_or_vec.rs), evaluated in the model.

They are not proofs of properties: they show that the definitions of the model compute what the tests, which pass, say that the Rust code computes. -/
namespace Verif.Props.RepoTests
open Verif.Layout Verif.Layout.Platform Verif.Sum Verif.Report.Named

/-- x86_64: the tests were written for it. -/
def target : Target := ⟨8, 2, 4, 8, 16, 8, 4, 8⟩

/-- The layouts of the types that the tests use. -/
def u8 := decl target (.uint .w8)
def u16 := decl target (.uint .w16)
def u32 := decl target (.uint .w32)
def u64 := decl target (.uint .w64)
def u128 := decl target (.uint .w128)
def usize := decl target .usize
def nz8 := decl target (.nonZeroU .w8)
def nz16 := decl target (.nonZeroU .w16)
def nz32 := decl target (.nonZeroU .w32)
def bool := decl target .bool
def unit := Lay.unit
def ref := decl target .ref
/-- `Slice<'a, T>` (stabby-abi/src/slice.rs:22-29), and `Str`, which is one (str.rs:19-22). -/
def slice := structOf [decl target .nonNull, usize, decl target .phantomData]
/-- `Vec` with the allocator of `alloc`, which holds no bytes (vec.rs:59-69, rust_alloc.rs:18-22), and `String` (string.rs:12-17). -/
def string := structOf [structOf [structOf [structOf [decl target .nonNull, decl target .phantomData], decl target .nonNull, decl target .nonNull,
  structOf [Lay.array u8 0]]]]
def ff (l : List Nat) : Mask := l.map fun i => (i, 0xFF)

/-! ### layouts.rs:146-262 -/

/-- `HasExactlyOneNiche` (layouts.rs:149-153). -/
example : (structOf [usize, ref]).oneNiche = .b1 ∧ (structOf [usize, u8]).oneNiche = .saturator ∧ (structOf [u32, u32, u32]).oneNiche = .b0 ∧
    (structOf [u8, u32]).oneNiche = .saturator := by decide +kernel

/-- Primitive types (layouts.rs:197-224): no unused bits, and the forbidden value that is selected. -/
example : (∀ p ∈ [Prim.bool, .uint .w8, .uint .w16, .uint .w32, .uint .w64, .uint .w128, .usize, .nonZeroU .w8, .nonZeroU .w16, .nonZeroU .w32, .nonZeroU .w64,
      .nonZeroU .w128, .nonZeroUsize, .int .w8, .int .w16, .int .w32, .int .w64, .int .w128, .isize, .nonZeroI .w8, .nonZeroI .w16, .nonZeroI .w32,
      .nonZeroI .w64, .nonZeroI .w128, .nonZeroIsize, .ref, .refMut], (decl target p).ub = []) ∧
    bool.fv.selectOne = [(0, 2)] ∧ (∀ p ∈ [Prim.uint .w8, .uint .w16, .uint .w32, .uint .w64, .uint .w128, .usize, .int .w8, .int .w16, .int .w32, .int .w64,
      .int .w128, .isize], (decl target p).fv.selectOne = []) ∧
    nz8.fv.selectOne = [(0, 0)] ∧ nz16.fv.selectOne = [(0, 0), (1, 0)] := by decide +kernel

/-- Structs and unions (layouts.rs:225-234, 244-245). -/
example : slice.ub = [] ∧
    (let t := structOf [usize, usize]; t.ub = [] ∧ t.fv.selectOne = []) ∧
    (let t := structOf [u32, u8]; t.ub = ff [5, 6, 7] ∧ t.fv.selectOne = []) ∧
    (let t := structOf [u8, u32]; t.ub = ff [1, 2, 3] ∧ t.fv.selectOne = []) ∧
    (let t := structOf [u8, structOf [u8, u32]]; t.ub = ff [1, 2, 3, 5, 6, 7] ∧ t.fv.selectOne = []) ∧
    (∀ t ∈ [Lay.union u8 usize, Lay.union u8 unit, Lay.union unit u8, unionOf [u8, u64], structOf [unit, usize], structOf [usize, unit]],
      t.ub = [] ∧ t.fv.selectOne = []) := by decide +kernel

/-- Enums with a tag and results (layouts.rs:235-243). -/
example :
    (let t := resultLay unit unit; t.ub = [(0, 0b11111110)] ∧ t.fv.selectOne = []) ∧
    (let t := enumOf u8 [nz32]; t.ub = ff [1, 2, 3] ∧ t.fv.selectOne = [] ∧ t.size = 8 ∧ t.align = 4) ∧
    (let t := sumLay [nz32, unit]; t.ub = [] ∧ t.fv.selectOne = [] ∧ t.size = 4) ∧
    (let t := enumOf u8 [nz16, structOf [u8, u16], u8]; t.ub = ff [1] ∧ t.fv.selectOne = []) ∧
    (let t := resultLay u32 unit; t.ub = (0, 0b11111110) :: ff [1, 2, 3] ∧ t.fv.selectOne = []) ∧
    (let t := resultLay (structOf [u8, u16]) (resultLay u32 unit); t.ub = [(1, 0b11111110)] ∧ t.fv.selectOne = []) ∧
    (let t := resultLay nz16 unit; t.ub = [] ∧ t.fv.selectOne = []) ∧
    (let t := sumLay [nz16, unit, structOf [u8, u16], u32, unit]; t.ub.head? = some (1, 0b11111100) ∧ t.fv.selectOne = []) := by decide +kernel

/-- core's `Option`s of types with one niche (layouts.rs:249-251). -/
example : ∀ p ∈ [Prim.ref, .refMut, .nonZeroI .w8], (decl target p).oneNiche = .b1 ∧ (optionLay (decl target p)).ub = [] ∧
    (optionLay (decl target p)).fv.selectOne = [] := by decide +kernel

/-- Sizes (layouts.rs:252-275): eight positions of the smaller payload are tried, and no more; types with a large alignment. -/
example :
    (let a128 := alignedStructOf 16 [u128]
     let ok := structOf [u64, a128]
     let err := structOf [structOf [nz8, u8, u8, u8, u8, u8, u8, u8], structOf [u8, u8, u8, u8, u8, u8, u8, u8]]
     ok.size = 2 * 16 ∧ err.size = 16 ∧ storageBytes ok err = 3 * 16) ∧
    (let a1024 := alignedStructOf 1024 [u8]; a1024.align = 1024 ∧ a1024.size = 1024) := by decide +kernel

/-! ### enums.rs:17-91 -/

/-- The expected sizes, in the order of the test (enums.rs:59-90). -/
example : (resultLay u8 u8).size = 2 ∧ (resultLay (resultLay u8 u8) (resultLay u8 u8)).size = 2 ∧
    (resultLay (structOf [u8, u16]) (structOf [u16, u16])).sizeFn = 6 ∧
    (resultLay (structOf [u8, u16]) (structOf [u8, nz8])).sizeFn = 4 ∧
    (resultLay (structOf [u8, nz8]) (structOf [u8, u16])).sizeFn = 4 ∧
    (resultLay (structOf [u8, nz8, u16]) (structOf [u8, u16])).sizeFn = 4 ∧
    (resultLay (structOf [u8, u16]) (structOf [u8, u16])).sizeFn = 4 ∧
    (resultLay u16 (structOf [u8, u16])).sizeFn = 4 ∧
    (resultLay u8 nz16).sizeFn = 4 ∧
    (resultLay nz16 unit).size = 2 ∧ (resultLay u8 unit).size = 2 ∧ (resultLay bool unit).size = 1 ∧
    (resultLay bool unit).sizeFn = 1 ∧
    (resultLay string slice).sizeFn = string.size ∧ string.size = 24 := by decide +kernel

/-- And the results, of payloads `1, 2, 3, ..`, are in the state they were made in and hold what they were given. -/
example : ∀ p ∈ [(u8, u8), (structOf [u8, u16], structOf [u16, u16]), (structOf [u8, u16], structOf [u8, nz8]), (structOf [u8, nz8], structOf [u8, u16]),
      (structOf [u8, nz8, u16], structOf [u8, u16]), (structOf [u8, u16], structOf [u8, u16]), (u16, structOf [u8, u16]), (u8, nz16), (bool, unit),
      (string, slice)],
    let src : Mem := fun i => if i = 0 then 1 else BitVec.ofNat 8 (i + 1)
    Verif.Sum.isOk p.1 p.2 (mkOk p.1 p.2 src) = true ∧ Verif.Sum.isOk p.1 p.2 (mkErr p.1 p.2 src) = false ∧
      (∀ i < p.1.size, p.1.ub.byteAt i = 0 → okPtr p.1 p.2 (mkOk p.1 p.2 src) i = src i) ∧
      (∀ i < p.2.size, p.2.ub.byteAt i = 0 → errPtr p.1 p.2 (mkErr p.1 p.2 src) i = src i) := by decide +kernel

/-! ### typenum2/unsigned.rs:631-787 -/

open Verif.Typenum in
/-- `test_pair` (unsigned.rs:632-721). -/
def testPair (x y : Nat) : Prop :=
  let a := U.ofNat x
  let b := U.ofNat y
  let A := a.u128
  let B := b.u128
  (a.bitAnd b).u128 = A &&& B ∧ (a.bitOr b).u128 = A ||| B ∧ (a.add b).u128 = A + B ∧
    (a.truncate b).u128 = A &&& (if B = 0 then 0 else BitVec.allOnes 128 >>> (128 - B.toNat)) ∧
    (a.greater b = true ↔ A > B) ∧ (a.smaller b = true ↔ A < B) ∧ (a.equal b = true ↔ A = B) ∧
    (a.max b).u128.toNat = max A.toNat B.toNat ∧ (a.min b).u128.toNat = min A.toNat B.toNat ∧
    (a.absSub b).u128.toNat = (A.toNat - B.toNat) + (B.toNat - A.toNat) ∧
    a.nextPow2.u128.toNat = if A = 0 then 0 else A.toNat.log2 + 1
deriving Decidable

/-- unsigned.rs:722-742. -/
example : ∀ p ∈ [(0, 0), (0, 1), (1, 0), (1, 1), (1, 2), (2, 2), (3, 1), (4, 1), (2, 1), (4, 2), (4, 3), (4, 4), (4, 5), (5, 1), (1, 5), (5, 4), (2, 3), (3, 2),
    (10, 0), (10, 5), (10, 4)], testPair p.1 p.2 := by decide +kernel

open Verif.Typenum in
/-- unsigned.rs:743-779: equalities of types. -/
example : (U.ofNat 0).bitOr (U.ofNat 1) = (U.ofNat 1).bitOr (U.ofNat 0) ∧ (U.ofNat 0).notEqual (U.ofNat 0) = false ∧
    (∀ i ∈ [1, 2, 3, 4], (U.ofNat i).notEqual (U.ofNat 0) = true) ∧ (U.ofNat 10).bitAnd (U.ofNat 6) = U.ofNat 2 ∧
    (U.ofNat 2).equal ((U.ofNat 10).bitAnd (U.ofNat 6)) = true ∧ (U.ofNat 3).equal ((U.ofNat 10).bitAnd (U.ofNat 6)) = false ∧
    (U.ofNat 16).modulate (U.ofNat 11) = U.ofNat 11 ∧
    (∀ p ∈ [(11, 16, 11), (10, 16, 10), (11, 8, 3), (10, 8, 2), (11, 4, 3), (10, 4, 2), (11, 2, 1), (10, 2, 0), (10, 1, 0)],
      (U.ofNat p.1).mod (U.ofNat p.2.1) = U.ofNat p.2.2) ∧
    (U.ofNat 0b11111100).bitAnd (U.ofNat 0b111111) = U.ofNat 0b111100 ∧
    (∀ p ∈ [(0, 8, 0), (10, 8, 16), (16, 8, 16), (26, 8, 32), (26, 32, 32)], (U.ofNat p.1).nextMultipleOf (U.ofNat p.2.1) = U.ofNat p.2.2) ∧
    (∀ i ∈ [0, 1, 2, 3, 4, 5, 10], (U.ofNat i).u128.toNat = i) := by decide +kernel

/-- unsigned.rs:780-786: sizes of arrays. -/
example : ((arrayOf u8 (Verif.Typenum.U.ofNat 22)).lay u8).size = 22 ∧ ((arrayOf u16 (Verif.Typenum.U.ofNat 122)).lay u16).size = 2 * 122 ∧
    ((arrayOf u8 (Verif.Typenum.U.ofNat 0)).lay u8).size = 0 := by decide +kernel

/-! ### num.rs:196-250, 496-518 -/

open Verif.Num in
/-- The tests for the types of 8 bits (num.rs:198-214, 223-237). -/
example : (∀ i : BitVec 8, i ≠ 255 → (NonMax.new i).map NonMax.get = some i ∧ (NonX.new 255 i).map (NonX.get 255) = some i) ∧
    NonMax.new (255 : BitVec 8) = none ∧ NonX.new 255 (255 : BitVec 8) = none ∧ NonX.new 72 (72 : BitVec 8) = none ∧
    (∀ i : BitVec 8, i ≠ 72 → (NonX.new 72 i).map (NonX.get 72) = some i) ∧
    (∀ i : BitVec 8, i ≠ -128 → (NonX.new (-128) i).map (NonX.get (-128)) = some i) ∧ NonX.new (-128) (-128 : BitVec 8) = none := by
  decide +kernel

open Verif.Num in
/-- `numbers`, for the types of 8 bits (num.rs:497-516). -/
example : (∀ i : BitVec 8, ((U.new 6 i).isNone → i > U.get 6 (U.max 6) ∨ i < U.get 6 (U.min)) ∧
      (U.new 6 i).all fun n => U.get 6 n = i ∧ i ≤ U.get 6 (U.max 6) ∧ U.get 6 U.min ≤ i) ∧
    (∀ i : BitVec 8, ((I.new 6 i).isNone → i.toInt > (I.get 6 (I.max 6) : BitVec 8).toInt ∨ i.toInt < (I.get 6 (I.min 6) : BitVec 8).toInt) ∧
      (I.new 6 i).all fun n => I.get 6 n = i ∧ i.toInt ≤ (I.get 6 (I.max 6) : BitVec 8).toInt ∧ (I.get 6 (I.min 6) : BitVec 8).toInt ≤ i.toInt) := by
  decide +kernel

/-! ### alloc/collections/arc_btree.rs:755-818 -/

/-- The values of the test are random; these are not. -/
def values : List Nat := (List.range 120).map fun i => (i * i * 7 + i * 3) % 53

open Verif.BTree in
/-- `btree_insert_rs` and `btree_insert_libc`: what is inserted for the second time comes back, the tree has as many elements as the vector without duplicates, and
lists them in its order. -/
example : (run (id : Nat → Nat) ⟨false, 5⟩ 200 St.new (.new :: values.map (.insert 0) ++ [.len 0, .visit 0])).map (·.1) =
    some (.unit :: (List.range values.length).map (fun i => .elem (if values[i]! ∈ values.take i then some values[i]! else none)) ++
      [.count ((List.range 53).filter (· ∈ values)).length, .list ((List.range 53).filter (· ∈ values))]) := by decide +kernel

/-! ### alloc/vec.rs:808-833, alloc/single_or_vec.rs:586-610 -/

open Verif.Vec in
/-- A vector made with `new` and one with `with_capacity`: pushes, a drain, a swap. -/
example :
    let l := values
    let d := l.take 55 ++ l.drop 100
    let after := (d.set 5 d[12]!).set 12 d[5]!
    let ops : List (Op Nat) := l.map .push ++ [.asSlice, .drain 55 100 0 false, .swap 5 12, .asSlice]
    let want : List (Res Nat) := l.map (fun _ => .unit) ++ [.refs l, .yielded [], .unit, .refs after]
    (run ⟨1, fun _ _ => true⟩ St.new ops).map (·.1) = some want ∧
      (run ⟨1, fun _ _ => true⟩ St.new (.replace 2000 :: ops)).map (·.1) = some (.unit :: want) := by decide +kernel

open Verif.Vec Verif.Props.Sov in
/-- A `SingleOrVec<u8>`: the first element is held without an allocation, unless there is a capacity. -/
example :
    let e := envOf .u8 (fun _ _ => true)
    let l := values.take 21
    ((srun e Sov.new [.push 7]).map fun p => p.2.cur) = some (some 7) ∧
    ((srun e Sov.new [.reserve 20, .push 7]).map fun p => p.2.cur) = some none ∧
    ((srun e Sov.new (l.map .push ++ [.asSlice])).map fun p => p.1.getLast?) = some (some (.refs l)) ∧
    ((srun e Sov.new (.reserve 20 :: l.map .push ++ [.asSlice])).map fun p => p.1.getLast?) = some (some (.refs l)) := by decide +kernel

end Verif.Props.RepoTests
