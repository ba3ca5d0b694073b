import Verif.Model.DramRegions
/-
Model of src/crypto/hash.cc: SHA-256 over physical memory.
-/
namespace Sanctum

/-- `hash_k`: src/crypto/hash.cc:19-36. -/
def hashK : List W32 := [
  0x428a2f98, 0x71374491, 0xb5c0fbcf, 0xe9b5dba5,
  0x3956c25b, 0x59f111f1, 0x923f82a4, 0xab1c5ed5,
  0xd807aa98, 0x12835b01, 0x243185be, 0x550c7dc3,
  0x72be5d74, 0x80deb1fe, 0x9bdc06a7, 0xc19bf174,
  0xe49b69c1, 0xefbe4786, 0x0fc19dc6, 0x240ca1cc,
  0x2de92c6f, 0x4a7484aa, 0x5cb0a9dc, 0x76f988da,
  0x983e5152, 0xa831c66d, 0xb00327c8, 0xbf597fc7,
  0xc6e00bf3, 0xd5a79147, 0x06ca6351, 0x14292967,
  0x27b70a85, 0x2e1b2138, 0x4d2c6dfc, 0x53380d13,
  0x650a7354, 0x766a0abb, 0x81c2c92e, 0x92722c85,
  0xa2bfe8a1, 0xa81a664b, 0xc24b8b70, 0xc76c51a3,
  0xd192e819, 0xd6990624, 0xf40e3585, 0x106aa070,
  0x19a4c116, 0x1e376c08, 0x2748774c, 0x34b0bcb5,
  0x391c0cb3, 0x4ed8aa4a, 0x5b9cca4f, 0x682e6ff3,
  0x748f82ee, 0x78a5636f, 0x84c87814, 0x8cc70208,
  0x90befffa, 0xa4506ceb, 0xbef9a3f7, 0xc67178f2]

/-- `hash_k[i]`. -/
def hashKAt (i : Nat) : W32 := hashK.getD i 0

/-- `rotate_right`: src/crypto/hash.cc:41-43. -/
def rotateRight (value : W32) (size : Nat) : W32 := (value >>> size) ||| (value <<< (32 - size))

/-- The eight local variables `a` .. `h` of `extend_hash`: src/crypto/hash.cc:77-84. -/
structure HashRegs where
  a : W32
  b : W32
  c : W32
  d : W32
  e : W32
  f : W32
  g : W32
  h : W32

/-- The update of `a` .. `h` in one iteration: src/crypto/hash.cc:102-114 (`k` is `hash_k[i]`). -/
def hashRound (s : HashRegs) (k wi : W32) : HashRegs :=
  let ch := (s.e &&& s.f) ^^^ ((~~~ s.e) &&& s.g)
  let maj := (s.a &&& s.b) ^^^ (s.a &&& s.c) ^^^ (s.b &&& s.c)
  let sigma0 := rotateRight s.a 2 ^^^ rotateRight s.a 13 ^^^ rotateRight s.a 22
  let sigma1 := rotateRight s.e 6 ^^^ rotateRight s.e 11 ^^^ rotateRight s.e 25
  let temp1 := s.h + sigma1 + ch + k + wi
  let temp2 := sigma0 + maj
  { h := s.g, g := s.f, f := s.e, e := s.d + temp1, d := s.c, c := s.b, b := s.a, a := temp1 + temp2 }

/-- `gamma0`: src/crypto/hash.cc:93-94 (`clamp_to_32` is the identity on 32-bit values, lines 44-47). -/
def gamma0 (w15 : W32) : W32 := rotateRight w15 7 ^^^ rotateRight w15 18 ^^^ (w15 >>> 3)

/-- `gamma1`: src/crypto/hash.cc:95-96. -/
def gamma1 (w2 : W32) : W32 := rotateRight w2 17 ^^^ rotateRight w2 19 ^^^ (w2 >>> 10)

/-- Address of element `i` of a `uint32_t` array. -/
def at32 (base : W) (i : Nat) : W := base + BitVec.ofNat 64 (4 * i)

/-- Computation of `wi` in iteration `i`: src/crypto/hash.cc:88-100 (`wi = w[..] = x` reads the
assigned `phys_ref` back, hence the load after the store). -/
def hashSchedule (w block : W) (i : Nat) : Prog W32 :=
  if i < 16 then do
    let x ← load32 (at32 block i)
    store32 (at32 w (i % 16)) (toBigEndian x)
    load32 (at32 w (i % 16))
  else do
    let w15 ← load32 (at32 w ((i - 15) % 16))
    let w2 ← load32 (at32 w ((i - 2) % 16))
    let w7 ← load32 (at32 w ((i - 7) % 16))
    let w16 ← load32 (at32 w (i % 16))
    store32 (at32 w (i % 16)) (w16 + gamma0 w15 + w7 + gamma1 w2)
    load32 (at32 w (i % 16))

/-- The 64 iterations: src/crypto/hash.cc:87-115; `n` iterations left, current index `i`. -/
def hashRounds (w block : W) : Nat → Nat → HashRegs → Prog HashRegs
  | 0, _, s => pure s
  | n + 1, i, s => do
      let wi ← hashSchedule w block i
      hashRounds w block n (i + 1) (hashRound s (hashKAt i) wi)

/-- `hptr[i] = clamp_to_32(hptr[i] + x)`: src/crypto/hash.cc:117-124. -/
def hashAdd (h : W) (i : Nat) (x : W32) : Prog Unit := do
  let v ← load32 (at32 h i)
  store32 (at32 h i) (v + x)

/-- `extend_hash`: src/crypto/hash.cc:75-134. -/
def extendHash (state block : W) : Prog Unit := do
  let a ← load32 (at32 state 0)
  let b ← load32 (at32 state 1)
  let c ← load32 (at32 state 2)
  let d ← load32 (at32 state 3)
  let e ← load32 (at32 state 4)
  let f ← load32 (at32 state 5)
  let g ← load32 (at32 state 6)
  let h ← load32 (at32 state 7)
  let s ← hashRounds (state + offWorkArea) block 64 0 ⟨a, b, c, d, e, f, g, h⟩
  hashAdd state 0 s.a
  hashAdd state 1 s.b
  hashAdd state 2 s.c
  hashAdd state 3 s.d
  hashAdd state 4 s.e
  hashAdd state 5 s.f
  hashAdd state 6 s.g
  hashAdd state 7 s.h
  let x ← load32 (state + offPadding + 60)
  store32 (state + offPadding + 60) (toBigEndian (toBigEndian x + 512))

/-- `init_hash`: src/crypto/hash.cc:57-73. -/
def initHash (state : W) : Prog Unit := do
  store32 (at32 state 0) 0x6a09e667
  store32 (at32 state 1) 0xbb67ae85
  store32 (at32 state 2) 0x3c6ef372
  store32 (at32 state 3) 0xa54ff53a
  store32 (at32 state 4) 0x510e527f
  store32 (at32 state 5) 0x9b05688c
  store32 (at32 state 6) 0x1f83d9ab
  store32 (at32 state 7) 0x5be0cd19
  bzero (state + offPadding) 64
  store32 (state + offPadding) (toBigEndian (1 <<< 31))

/-- `finalize_hash`: src/crypto/hash.cc:136-139. -/
def finalizeHash (state : W) : Prog Unit := extendHash state (state + offPadding)

end Sanctum
