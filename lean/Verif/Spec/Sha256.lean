/-
SHA-256 as FIPS 180-4 defines it, over byte strings. Written from the standard, independently of the
model: the constants are computed from the primes, the message schedule is the 64-word one, and the
padding works on messages of any byte length.
-/
namespace Sanctum.Sha

/-- A byte of a message. -/
abbrev Byte := BitVec 8
/-- A 32-bit word (FIPS 180-4, 2.1). -/
abbrev Word := BitVec 32

/-- The greatest `n < 2 ^ bits` with `n ^ k ≤ x` (for `k > 0`). -/
def floorRoot (k x : Nat) : Nat → Nat → Nat
  | 0, acc => acc
  | b + 1, acc => if (acc + 2 ^ b) ^ k ≤ x then floorRoot k x b (acc + 2 ^ b) else floorRoot k x b acc

/-- The first 32 bits of the fractional part of the `k`-th root of `p`: the integer part of
`2 ^ 32 * p ^ (1 / k)`, without its bits above the 32nd. -/
def fracRoot (k p : Nat) : Word := BitVec.ofNat 32 (floorRoot k (p * 2 ^ (32 * k)) 40 0)

/-- Is `p` a prime number? -/
def isPrime (p : Nat) : Bool := decide (2 ≤ p) && (List.range p).all (fun d => d < 2 || p % d != 0)

/-- The prime numbers up to 311, the 64th. -/
def primes : List Nat := (List.range 312).filter isPrime

/-- The constants `K_t` (4.2.2): cube roots of the first 64 primes. -/
def K : List Word := primes.map (fracRoot 3)

/-- `Ch` (4.1.2). -/ def Ch (x y z : Word) : Word := (x &&& y) ^^^ (~~~ x &&& z)
/-- `Maj` (4.1.2). -/ def Maj (x y z : Word) : Word := (x &&& y) ^^^ (x &&& z) ^^^ (y &&& z)
/-- `ROTR` (3.2). -/ def ROTR (n : Nat) (x : Word) : Word := x.rotateRight n
/-- `SHR` (3.2). -/ def SHR (n : Nat) (x : Word) : Word := x >>> n
/-- `Σ0` (4.1.2). -/ def bigSigma0 (x : Word) : Word := ROTR 2 x ^^^ ROTR 13 x ^^^ ROTR 22 x
/-- `Σ1` (4.1.2). -/ def bigSigma1 (x : Word) : Word := ROTR 6 x ^^^ ROTR 11 x ^^^ ROTR 25 x
/-- `σ0` (4.1.2). -/ def sigma0 (x : Word) : Word := ROTR 7 x ^^^ ROTR 18 x ^^^ SHR 3 x
/-- `σ1` (4.1.2). -/ def sigma1 (x : Word) : Word := ROTR 17 x ^^^ ROTR 19 x ^^^ SHR 10 x

/-- The eight working variables, and the eight words of a hash value. -/
structure State where
  a : Word
  b : Word
  c : Word
  d : Word
  e : Word
  f : Word
  g : Word
  h : Word
  deriving DecidableEq

/-- The initial hash value (5.3.3): square roots of the first eight primes. -/
def H0 : State :=
  { a := fracRoot 2 2, b := fracRoot 2 3, c := fracRoot 2 5, d := fracRoot 2 7,
    e := fracRoot 2 11, f := fracRoot 2 13, g := fracRoot 2 17, h := fracRoot 2 19 }

/-- One more word of the message schedule (6.2.2, step 1): from `W_0 .. W_(t-1)` to `W_0 .. W_t`. -/
def expand (w : List Word) : List Word :=
  let t := w.length
  w ++ [sigma1 (w.getD (t - 2) 0) + w.getD (t - 7) 0 + sigma0 (w.getD (t - 15) 0) + w.getD (t - 16) 0]

/-- `n` more words of the schedule. -/
def expands : Nat → List Word → List Word
  | 0, w => w
  | n + 1, w => expand (expands n w)

/-- The message schedule `W_0 .. W_63` of a block of 16 words. -/
def schedule (block : List Word) : List Word := expands 48 block

/-- One round (6.2.2, step 3). -/
def round (s : State) (k w : Word) : State :=
  let t1 := s.h + bigSigma1 s.e + Ch s.e s.f s.g + k + w
  let t2 := bigSigma0 s.a + Maj s.a s.b s.c
  { h := s.g, g := s.f, f := s.e, e := s.d + t1, d := s.c, c := s.b, b := s.a, a := t1 + t2 }

/-- The rounds `t < n`. -/
def rounds (w : List Word) (s : State) : Nat → State
  | 0 => s
  | t + 1 => round (rounds w s t) (K.getD t 0) (w.getD t 0)

/-- Word-wise sum (6.2.2, step 4). -/
def State.add (s t : State) : State :=
  { a := s.a + t.a, b := s.b + t.b, c := s.c + t.c, d := s.d + t.d,
    e := s.e + t.e, f := s.f + t.f, g := s.g + t.g, h := s.h + t.h }

/-- One block of 16 words (6.2.2). -/
def compress (s : State) (block : List Word) : State := s.add (rounds (schedule block) s 64)

/-- Four bytes as a word, most significant first (3.1). -/
def bigEndian (b0 b1 b2 b3 : Byte) : Word := (b0 ++ b1 ++ b2 ++ b3 : BitVec 32)

/-- A byte string cut into words. -/
def words : List Byte → List Word
  | b0 :: b1 :: b2 :: b3 :: rest => bigEndian b0 b1 b2 b3 :: words rest
  | _ => []

/-- A word string cut into blocks of 16 (5.2.1). -/
def blocks : Nat → List Word → List (List Word)
  | 0, _ => []
  | n + 1, ws => ws.take 16 :: blocks n (ws.drop 16)

/-- A number below `2 ^ 64` as eight bytes, most significant first. -/
def length64 (n : Nat) : List Byte := (List.range 8).map (fun i => BitVec.ofNat 8 (n / 2 ^ (8 * (7 - i))))

/-- Padding (5.1.1) with `bits` in the length field: a one bit, zeros up to 56 modulo 64 bytes, the field. -/
def padWith (bits : Nat) (msg : List Byte) : List Byte :=
  msg ++ [0x80] ++ List.replicate ((119 - msg.length % 64) % 64) 0 ++ length64 bits

/-- The hash of `msg` when its length field is `bits` (6.2). -/
def hashWith (bits : Nat) (msg : List Byte) : State :=
  (blocks ((padWith bits msg).length / 64) (words (padWith bits msg))).foldl compress H0

/-- SHA-256 of a message (shorter than `2 ^ 61` bytes): the length field is its length in bits. -/
def sha256 (msg : List Byte) : State := hashWith (8 * msg.length) msg

/-- The digest as a byte string. -/
def State.bytes (s : State) : List Byte :=
  [s.a, s.b, s.c, s.d, s.e, s.f, s.g, s.h].flatMap fun w =>
    [w.extractLsb' 24 8, w.extractLsb' 16 8, w.extractLsb' 8 8, w.extractLsb' 0 8]

/-! ### The specification gives the published test values -/

example : primes.length = 64 := by decide +kernel

/-- `floorRoot` is the root. -/
theorem floorRoot_spec (k x : Nat) : ∀ b acc, acc ^ k ≤ x → x < (acc + 2 ^ b) ^ k →
    (floorRoot k x b acc) ^ k ≤ x ∧ x < (floorRoot k x b acc + 1) ^ k := by
  intro b
  induction b with
  | zero => intro acc h1 h2; exact ⟨h1, by simpa [floorRoot] using h2⟩
  | succ b ih =>
      intro acc h1 h2
      rw [floorRoot]
      by_cases h : (acc + 2 ^ b) ^ k ≤ x
      · rw [if_pos h]; exact ih _ h (by rw [Nat.add_assoc, ← Nat.two_mul, Nat.mul_comm, ← Nat.pow_succ]; exact h2)
      · rw [if_neg h]; exact ih _ h1 (by omega)

/-- SHA-256 of the empty string. -/
example : sha256 [] = ⟨0xe3b0c442, 0x98fc1c14, 0x9afbf4c8, 0x996fb924, 0x27ae41e4, 0x649b934c, 0xa495991b, 0x7852b855⟩ := by
  decide +kernel
/-- SHA-256 of "abc". -/
example : sha256 [0x61, 0x62, 0x63] =
    ⟨0xba7816bf, 0x8f01cfea, 0x414140de, 0x5dae2223, 0xb00361a3, 0x96177a9c, 0xb410ff61, 0xf20015ad⟩ := by
  decide +kernel
/-- SHA-256 of "abcdbcdecdefdefgefghfghighijhijkijkljklmklmnlmnomnopnopq". -/
example : sha256 ("abcdbcdecdefdefgefghfghighijhijkijkljklmklmnlmnomnopnopq".toList.map fun c => BitVec.ofNat 8 c.toNat) =
    ⟨0x248d6a61, 0xd20638b8, 0xe5c02693, 0x0c3e6039, 0xa33ce459, 0x64ff2167, 0xf6ecedd4, 0x19db06c1⟩ := by
  decide +kernel

end Sanctum.Sha
