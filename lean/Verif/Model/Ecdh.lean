import Verif.Model.Basic
import Mathlib.Data.Int.GCD
/-! # ecdh.go: from Ed25519 to Curve25519 public keys

`math/big` values are updated in place and ecdh.go passes the same value as receiver and operand, so big integers are cells of a store and every
method takes the cells of receiver and operands.
-/
namespace Noise

/-- Cells: the variables `y` and `denom`, the constant of `big.NewInt(1)` at ecdh.go:31, and the global `curve25519P`. -/
inductive Cell where
  | y | denom | one | p
  deriving DecidableEq

/-- Contents of the cells. ecdh.go:14-41: the variables of type `*big.Int`. -/
abbrev Store := Cell → Int

/-- Assignment to a cell. ecdh.go:14-41. -/
def Store.put (h : Store) (c : Cell) (v : Int) : Store := fun d => if d = c then v else h d

/-- `z.Add(a, b)`; like all methods of `big.Int` used here it returns `z`. ecdh.go:14-41. -/
def bigAdd (z a b : Cell) (h : Store) : Cell × Store := (z, h.put z (h a + h b))
/-- `z.Sub(a, b)`. ecdh.go:14-41. -/
def bigSub (z a b : Cell) (h : Store) : Cell × Store := (z, h.put z (h a - h b))
/-- `z.Mul(a, b)`. ecdh.go:14-41. -/
def bigMul (z a b : Cell) (h : Store) : Cell × Store := (z, h.put z (h a * h b))
/-- `z.Mod(a, b)`: Euclidean modulus. ecdh.go:14-41. -/
def bigMod (z a b : Cell) (h : Store) : Cell × Store := (z, h.put z (h a % h b))

/-- `z.ModInverse(g, n)` (Go 1.13): a negative `g` is first reduced modulo `n`; if `g` and `n` are not coprime, `z` is left alone and nil is
returned (the result is not used at ecdh.go:30); otherwise `z` becomes a Bézout coefficient of `g`, plus `n` if it is negative. Which
coefficient the library's GCD finds does not matter here: the only use of `z` is followed by a reduction modulo `n`. -/
def bigModInverse (z g n : Cell) (h : Store) : Store :=
  let v := if h g < 0 then h g % h n else h g
  if Int.gcd v (h n) ≠ 1 then h
  else
    let x := Int.gcdA v (h n)
    if x < 0 then h.put z (x + h n) else h.put z x

/-- `new(big.Int).SetBytes(b)`: `b` is the magnitude, most significant byte first. ecdh.go:14-41. -/
def bigSetBytes (b : Bytes) : Int := ((b.foldl (fun (a : Nat) x => 256 * a + x.toNat) 0 : Nat) : Int)

/-- `x.Bytes()` for `x ≥ 0`: most significant byte first, without leading zeros. ecdh.go:14-41. -/
def bigBytes (x : Nat) : Bytes := if x = 0 then [] else bigBytes (x / 256) ++ [UInt8.ofNat (x % 256)]
  decreasing_by omega

/-- ecdh.go:11 `curve25519P`. -/
def curve25519P : Int := 57896044618658097711785492504343953926634992332820282019728792003956564819949

/-- ecdh.go:11, 28, 29, 31: the cells before the arithmetic, with `y` in cell `y`. -/
def store0 (y : Int) : Store
  | .y => y
  | .denom => 1
  | .one => 1
  | .p => curve25519P

/-- A byte slice assignment `b[i] = v`. ecdh.go:14-48. -/
def setByte (b : Bytes) (i : Int) (v : UInt8) : Res Bytes :=
  if 0 ≤ i ∧ i < b.length then .ok (b.set i.toNat v) else .panic

/-- ecdh.go:17-19 and 36-38: `for i, b := range src { dst[n-i-1] = b }`, from index `i` on. -/
def reverseInto (n : Nat) : Nat → Bytes → Bytes → Res Bytes
  | _, [], dst => .ok dst
  | i, b :: src, dst => do
    let dst ← setByte dst ((n : Int) - i - 1) b
    reverseInto n (i + 1) src dst

/-- ecdh.go:13-41 `ed25519PublicKeyToCurve25519`. -/
def ed25519PublicKeyToCurve25519 (pk : PublicKey) : Res Bytes := do
  let bigEndianY ← reverseInto 32 0 pk.1 (List.replicate 32 0)
  let bigEndianY ← match bigEndianY with
    | [] => .panic
    | b :: r => .ok ((b &&& 0x7f) :: r)
  let h := store0 (bigSetBytes bigEndianY)
  let (g, h) := bigSub .denom .denom .y h
  let h := bigModInverse .denom g .p h
  let (a, h) := bigAdd .y .y .one h
  let (u, h) := bigMul .y a .denom h
  let (u, h) := bigMod u u .p h
  let uBytes := bigBytes (h u).toNat
  reverseInto uBytes.length 0 uBytes (List.replicate 32 0)

end Noise
