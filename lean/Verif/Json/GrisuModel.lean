import Verif.Json.Model

/-!
# Model of `to_chars` of `ristra/io/catalyst/utils/json.hpp`

The text of a floating-point number, for `double`: the Grisu2 algorithm and the layout of its digits.  A
`double` is the number of its 64 bits.  Unsigned arithmetic is modulo 2^64 or 2^32 wherever the code
computes so; shifts by 64 or more and writing outside the buffer are undefined.  (The values of type
`int` stay below 2^31: they are exponents, lengths and their sums, and `f * 78913` with |f| < 1600.)
-/

namespace Verif.Json.Grisu

/-- `std::uint64_t` -/
def u64 (n : Nat) : Nat := n % 2 ^ 64

/-- `std::uint32_t` -/
def u32 (n : Nat) : Nat := n % 2 ^ 32

/-- `x << d` for `std::uint64_t` -/
def shl (x : Nat) (d : Int) : Outcome Nat :=
  if 0 ≤ d ∧ d < 64 then .ok (u64 (x <<< d.toNat)) else .ub

/-- `x >> d` for `std::uint64_t` -/
def shr (x : Nat) (d : Int) : Outcome Nat :=
  if 0 ≤ d ∧ d < 64 then .ok (x >>> d.toNat) else .ub

/-- `diyfp`, json.hpp:12700-12707: f * 2^e -/
structure Diyfp where
  f : Nat
  e : Int
deriving DecidableEq, Repr

/-- `diyfp::sub`, json.hpp:12713-12719 -/
def sub (x y : Diyfp) : Outcome Diyfp := do
  Outcome.assert (x.e = y.e)
  Outcome.assert (y.f ≤ x.f)
  return ⟨x.f - y.f, x.e⟩

/-- `diyfp::mul`, json.hpp:12725-12783 -/
def mul (x y : Diyfp) : Diyfp :=
  let uLo := x.f &&& 0xFFFFFFFF
  let uHi := x.f >>> 32
  let vLo := y.f &&& 0xFFFFFFFF
  let vHi := y.f >>> 32
  let p0 := u64 (uLo * vLo)
  let p1 := u64 (uLo * vHi)
  let p2 := u64 (uHi * vLo)
  let p3 := u64 (uHi * vHi)
  let p0Hi := p0 >>> 32
  let p1Lo := p1 &&& 0xFFFFFFFF
  let p1Hi := p1 >>> 32
  let p2Lo := p2 &&& 0xFFFFFFFF
  let p2Hi := p2 >>> 32
  let q := u64 (u64 (p0Hi + p1Lo) + p2Lo)
  let q := u64 (q + u64 (1 <<< 31))
  let h := u64 (u64 (u64 (p3 + p2Hi) + p1Hi) + q >>> 32)
  ⟨h, x.e + y.e + 64⟩

/-- the loop of `diyfp::normalize`, json.hpp:12794-12798; at most `fuel` rounds -/
def normalizeLoop : Nat → Diyfp → Outcome Diyfp
  | 0, _ => .diverges
  | n + 1, x => if x.f >>> 63 = 0 then normalizeLoop n ⟨u64 (x.f <<< 1), x.e - 1⟩ else .ok x

/-- `diyfp::normalize`, json.hpp:12790-12801.  (64 shifts of a 64-bit number that is not zero are enough.) -/
def normalize (x : Diyfp) : Outcome Diyfp := do
  Outcome.assert (x.f ≠ 0)
  normalizeLoop 65 x

/-- `diyfp::normalize_to`, json.hpp:12807-12815 -/
def normalizeTo (x : Diyfp) (target : Int) : Outcome Diyfp := do
  let delta := x.e - target
  Outcome.assert (0 ≤ delta)
  let y ← shl x.f delta
  let z ← shr y delta
  Outcome.assert (z = x.f)
  return ⟨y, target⟩

/-- `boundaries`, json.hpp:12818-12823 -/
structure Boundaries where
  w : Diyfp
  minus : Diyfp
  plus : Diyfp

/-- `std::isfinite` of a `double` -/
def isFinite (bits : Nat) : Bool := bits >>> 52 % 2048 ≠ 2047

/-- `compute_boundaries<double>`, json.hpp:12832-12897: `kPrecision` 53, `kBias` 1075, `kMinExp` -1074 -/
def computeBoundaries (bits : Nat) : Outcome Boundaries := do
  Outcome.assert (isFinite bits)
  Outcome.assert (bits < 2 ^ 63 ∧ bits ≠ 0)
  let E := bits >>> 52
  let F := bits &&& (2 ^ 52 - 1)
  let v : Diyfp := if E = 0 then ⟨F, -1074⟩ else ⟨F + 2 ^ 52, (E : Int) - 1075⟩
  let closer : Bool := F = 0 ∧ 1 < E
  let mPlus : Diyfp := ⟨u64 (2 * v.f + 1), v.e - 1⟩
  let mMinus : Diyfp := if closer then ⟨u64 (4 * v.f + (2 ^ 64 - 1)), v.e - 2⟩
    else ⟨u64 (2 * v.f + (2 ^ 64 - 1)), v.e - 1⟩
  let wPlus ← normalize mPlus
  let wMinus ← normalizeTo mMinus wPlus.e
  let w ← normalize v
  return ⟨w, wMinus, wPlus⟩

/-- `cached_power`, json.hpp:12957-12962: f * 2^e, about 10^k -/
structure Power where
  f : Nat
  e : Int
  k : Int
deriving DecidableEq, Repr

/-- the table `kCachedPowers`, json.hpp:13026-13109 -/
def powers : List Power :=
  [⟨0xAB70FE17C79AC6CA, -1060, -300⟩, ⟨0xFF77B1FCBEBCDC4F, -1034, -292⟩,
   ⟨0xBE5691EF416BD60C, -1007, -284⟩, ⟨0x8DD01FAD907FFC3C, -980, -276⟩,
   ⟨0xD3515C2831559A83, -954, -268⟩, ⟨0x9D71AC8FADA6C9B5, -927, -260⟩,
   ⟨0xEA9C227723EE8BCB, -901, -252⟩, ⟨0xAECC49914078536D, -874, -244⟩,
   ⟨0x823C12795DB6CE57, -847, -236⟩, ⟨0xC21094364DFB5637, -821, -228⟩,
   ⟨0x9096EA6F3848984F, -794, -220⟩, ⟨0xD77485CB25823AC7, -768, -212⟩,
   ⟨0xA086CFCD97BF97F4, -741, -204⟩, ⟨0xEF340A98172AACE5, -715, -196⟩,
   ⟨0xB23867FB2A35B28E, -688, -188⟩, ⟨0x84C8D4DFD2C63F3B, -661, -180⟩,
   ⟨0xC5DD44271AD3CDBA, -635, -172⟩, ⟨0x936B9FCEBB25C996, -608, -164⟩,
   ⟨0xDBAC6C247D62A584, -582, -156⟩, ⟨0xA3AB66580D5FDAF6, -555, -148⟩,
   ⟨0xF3E2F893DEC3F126, -529, -140⟩, ⟨0xB5B5ADA8AAFF80B8, -502, -132⟩,
   ⟨0x87625F056C7C4A8B, -475, -124⟩, ⟨0xC9BCFF6034C13053, -449, -116⟩,
   ⟨0x964E858C91BA2655, -422, -108⟩, ⟨0xDFF9772470297EBD, -396, -100⟩, ⟨0xA6DFBD9FB8E5B88F, -369, -92⟩,
   ⟨0xF8A95FCF88747D94, -343, -84⟩, ⟨0xB94470938FA89BCF, -316, -76⟩, ⟨0x8A08F0F8BF0F156B, -289, -68⟩,
   ⟨0xCDB02555653131B6, -263, -60⟩, ⟨0x993FE2C6D07B7FAC, -236, -52⟩, ⟨0xE45C10C42A2B3B06, -210, -44⟩,
   ⟨0xAA242499697392D3, -183, -36⟩, ⟨0xFD87B5F28300CA0E, -157, -28⟩, ⟨0xBCE5086492111AEB, -130, -20⟩,
   ⟨0x8CBCCC096F5088CC, -103, -12⟩, ⟨0xD1B71758E219652C, -77, -4⟩, ⟨0x9C40000000000000, -50, 4⟩,
   ⟨0xE8D4A51000000000, -24, 12⟩, ⟨0xAD78EBC5AC620000, 3, 20⟩, ⟨0x813F3978F8940984, 30, 28⟩,
   ⟨0xC097CE7BC90715B3, 56, 36⟩, ⟨0x8F7E32CE7BEA5C70, 83, 44⟩, ⟨0xD5D238A4ABE98068, 109, 52⟩,
   ⟨0x9F4F2726179A2245, 136, 60⟩, ⟨0xED63A231D4C4FB27, 162, 68⟩, ⟨0xB0DE65388CC8ADA8, 189, 76⟩,
   ⟨0x83C7088E1AAB65DB, 216, 84⟩, ⟨0xC45D1DF942711D9A, 242, 92⟩, ⟨0x924D692CA61BE758, 269, 100⟩,
   ⟨0xDA01EE641A708DEA, 295, 108⟩, ⟨0xA26DA3999AEF774A, 322, 116⟩, ⟨0xF209787BB47D6B85, 348, 124⟩,
   ⟨0xB454E4A179DD1877, 375, 132⟩, ⟨0x865B86925B9BC5C2, 402, 140⟩, ⟨0xC83553C5C8965D3D, 428, 148⟩,
   ⟨0x952AB45CFA97A0B3, 455, 156⟩, ⟨0xDE469FBD99A05FE3, 481, 164⟩, ⟨0xA59BC234DB398C25, 508, 172⟩,
   ⟨0xF6C69A72A3989F5C, 534, 180⟩, ⟨0xB7DCBF5354E9BECE, 561, 188⟩, ⟨0x88FCF317F22241E2, 588, 196⟩,
   ⟨0xCC20CE9BD35C78A5, 614, 204⟩, ⟨0x98165AF37B2153DF, 641, 212⟩, ⟨0xE2A0B5DC971F303A, 667, 220⟩,
   ⟨0xA8D9D1535CE3B396, 694, 228⟩, ⟨0xFB9B7CD9A4A7443C, 720, 236⟩, ⟨0xBB764C4CA7A44410, 747, 244⟩,
   ⟨0x8BAB8EEFB6409C1A, 774, 252⟩, ⟨0xD01FEF10A657842C, 800, 260⟩, ⟨0x9B10A4E5E9913129, 827, 268⟩,
   ⟨0xE7109BFBA19C0C9D, 853, 276⟩, ⟨0xAC2820D9623BF429, 880, 284⟩, ⟨0x80444B5E7AA7CF85, 907, 292⟩,
   ⟨0xBF21E44003ACDD2D, 933, 300⟩, ⟨0x8E679C2F5E44FF8F, 960, 308⟩, ⟨0xD433179D9C8CB841, 986, 316⟩,
   ⟨0x9E19DB92B4E31BA9, 1013, 324⟩]

/-- `get_cached_power_for_binary_exponent`, json.hpp:12971-13129 -/
def cachedPower (e : Int) : Outcome Power := do
  Outcome.assert (-1500 ≤ e)
  Outcome.assert (e ≤ 1500)
  let f := -60 - e - 1
  let k := (f * 78913).tdiv (2 ^ 18) + (if 0 < f then 1 else 0)
  let index := (300 + k + (8 - 1)).tdiv 8
  Outcome.assert (0 ≤ index)
  Outcome.assert (index < powers.length)
  match powers[index.toNat]? with
  | none => .ub
  | some c => do
    Outcome.assert (-60 ≤ c.e + e + 64)
    Outcome.assert (c.e + e + 64 ≤ -32)
    return c

/-- `find_largest_pow10`, json.hpp:13135-13189: the number of digits, and `pow10` -/
def findLargestPow10 (n : Nat) : Nat × Nat :=
  if 1000000000 ≤ n then (10, 1000000000)
  else if 100000000 ≤ n then (9, 100000000)
  else if 10000000 ≤ n then (8, 10000000)
  else if 1000000 ≤ n then (7, 1000000)
  else if 100000 ≤ n then (6, 100000)
  else if 10000 ≤ n then (5, 10000)
  else if 1000 ≤ n then (4, 1000)
  else if 100 ≤ n then (3, 100)
  else if 10 ≤ n then (2, 10)
  else (1, 1)

/-- the loop of `grisu2_round`, json.hpp:13219-13226; the buffer is its first `len` characters.  At most `fuel`
rounds: the last character is a digit and becomes smaller in each, and a zero fails the assertion. -/
def roundLoop (delta dist tenK : Nat) : Nat → Bytes → Nat → Outcome Bytes
  | 0, _, _ => .diverges
  | n + 1, buf, rest =>
    if rest < dist ∧ tenK ≤ delta - rest ∧
        (u64 (rest + tenK) < dist ∨ u64 (rest + tenK + (2 ^ 64 - dist)) < dist - rest) then
      match buf.getLast? with
      | none => .ub
      | some c => do
        Outcome.assert (c ≠ 0x30)
        roundLoop delta dist tenK n (buf.dropLast ++ [c - 1]) (u64 (rest + tenK))
    else .ok buf

/-- `grisu2_round`, json.hpp:13191-13227 -/
def grisu2Round (buf : Bytes) (dist delta rest tenK : Nat) : Outcome Bytes := do
  Outcome.assert (1 ≤ buf.length)
  Outcome.assert (dist ≤ delta)
  Outcome.assert (rest ≤ delta)
  Outcome.assert (0 < tenK)
  roundLoop delta dist tenK 11 buf rest

/-- `buffer[length++] = '0' + d` in a buffer with room for `cap` characters -/
def push (cap : Nat) (buf : Bytes) (d : Nat) : Outcome Bytes :=
  if buf.length < cap then .ok (buf ++ [0x30 + d]) else .ub

/-- what the digit loops give: done, with the digits and the decimal exponent, or the state in which the second
one begins -/
inductive Integral where
  | done (buf : Bytes) (exp : Int)
  | more (buf : Bytes)

/-- the digits of the integral part, json.hpp:13295-13354.  `one` is 2^sh.  (A division by `pow10` = 0 is not
possible: it is 10^(n-1).) -/
def integral (cap sh p2 delta dist : Nat) (exp : Int) : Nat → Nat → Nat → Bytes → Outcome Integral
  | 0, _, _, buf => .ok (.more buf)
  | n + 1, p1, pow10, buf => do
    let d := p1 / pow10
    let r := p1 % pow10
    Outcome.assert (d ≤ 9)
    let buf ← push cap buf d
    let rest := u64 ((← shl r sh) + p2)
    if rest ≤ delta then do
      let tenN ← shl pow10 sh
      let buf ← grisu2Round buf dist delta rest tenN
      return .done buf (exp + n)
    else integral cap sh p2 delta dist exp n r (pow10 / 10) buf

/-- the digits of the fractional part, json.hpp:13395-13451; at most `fuel` rounds -/
def fractional (cap sh : Nat) : Nat → Nat → Nat → Nat → Int → Bytes → Outcome (Bytes × Int)
  | 0, _, _, _, _, _ => .diverges
  | n + 1, p2, delta, dist, exp, buf => do
    Outcome.assert (p2 ≤ (2 ^ 64 - 1) / 10)
    let p2 := u64 (p2 * 10)
    let d ← shr p2 sh
    let r := p2 &&& (2 ^ sh - 1)
    Outcome.assert (d ≤ 9)
    let buf ← push cap buf d
    let delta := u64 (delta * 10)
    let dist := u64 (dist * 10)
    if r ≤ delta then do
      let buf ← grisu2Round buf dist delta r (2 ^ sh)
      return (buf, exp - 1)
    else fractional cap sh n r delta dist (exp - 1) buf

/-- `grisu2_digit_gen`, json.hpp:13232-13465; the digits and the decimal exponent -/
def digitGen (cap : Nat) (exp : Int) (mMinus w mPlus : Diyfp) : Outcome (Bytes × Int) := do
  Outcome.assert (-60 ≤ mPlus.e)
  Outcome.assert (mPlus.e ≤ -32)
  let delta := (← sub mPlus mMinus).f
  let dist := (← sub mPlus w).f
  let one ← shl 1 (-mPlus.e)
  let p1 := u32 (← shr mPlus.f (-mPlus.e))
  let p2 := mPlus.f &&& (one - 1)
  Outcome.assert (0 < p1)
  let (k, pow10) := findLargestPow10 p1
  match ← integral cap (-mPlus.e).toNat p2 delta dist exp k p1 pow10 [] with
  | .done buf exp => return (buf, exp)
  | .more buf => do
    Outcome.assert (delta < p2)
    fractional cap (-mPlus.e).toNat 64 p2 delta dist exp buf

/-- `grisu2(buf, len, decimal_exponent, m_minus, v, m_plus)`, json.hpp:13473-13524 -/
def grisu2 (cap : Nat) (b : Boundaries) : Outcome (Bytes × Int) := do
  Outcome.assert (b.plus.e = b.minus.e)
  Outcome.assert (b.plus.e = b.w.e)
  let c ← cachedPower b.plus.e
  let w := mul b.w ⟨c.f, c.e⟩
  let wMinus := mul b.minus ⟨c.f, c.e⟩
  let wPlus := mul b.plus ⟨c.f, c.e⟩
  digitGen cap (-c.k) ⟨u64 (wMinus.f + 1), wMinus.e⟩ w ⟨u64 (wPlus.f + (2 ^ 64 - 1)), wPlus.e⟩

/-- `append_exponent`, json.hpp:13573-13612: what is appended -/
def exponent (e : Int) : Outcome Bytes := do
  Outcome.assert (-1000 < e)
  Outcome.assert (e < 1000)
  let k := e.natAbs
  let sign := if e < 0 then 0x2D else 0x2B
  if k < 10 then return [sign, 0x30, 0x30 + k]
  else if k < 100 then return [sign, 0x30 + k / 10, 0x30 + k % 10]
  else return [sign, 0x30 + k / 100, 0x30 + k % 100 / 10, 0x30 + k % 100 % 10]

/-- the text in a buffer with room for `cap` characters -/
def fits (cap : Nat) (t : Bytes) : Outcome Bytes := if t.length ≤ cap then .ok t else .ub

/-- `format_buffer`, json.hpp:13625-13693, with `min_exp` -4 and `max_exp` 15; `memmove` and `memset` are
given by what is in the buffer afterwards -/
def formatBuffer (cap : Nat) (buf : Bytes) (exp : Int) : Outcome Bytes := do
  let k : Int := buf.length
  let n : Int := k + exp
  if k ≤ n ∧ n ≤ 15 then
    fits cap (buf ++ List.replicate (n - k).toNat 0x30 ++ [0x2E, 0x30])
  else if 0 < n ∧ n ≤ 15 then do
    Outcome.assert (n < k)
    fits cap (buf.take n.toNat ++ 0x2E :: buf.drop n.toNat)
  else if -4 < n ∧ n ≤ 0 then
    fits cap ([0x30, 0x2E] ++ List.replicate (-n).toNat 0x30 ++ buf)
  else do
    let m := if k = 1 then buf else buf.take 1 ++ 0x2E :: buf.drop 1
    let x ← exponent (n - 1)
    fits cap (m ++ 0x65 :: x)

/-- the part of `to_chars<double>` after the sign, json.hpp:13722-13753 -/
def positive (cap : Nat) (bits : Nat) : Outcome Bytes :=
  if bits = 0 then fits cap [0x30, 0x2E, 0x30]
  else do
    Outcome.assert (17 ≤ cap)
    let b ← computeBoundaries bits
    let (buf, exp) ← grisu2 cap b
    Outcome.assert (buf.length ≤ 17)
    Outcome.assert (15 + 2 ≤ cap)
    Outcome.assert (2 + (4 - 1) + 17 ≤ cap)
    Outcome.assert (17 + 6 ≤ cap)
    formatBuffer cap buf exp

/-- `to_chars<double>`, json.hpp:13710-13753, as `dump_float` calls it, 14450-14456, with `number_buffer` of 64
characters -/
def toChars (bits : Nat) : Outcome Bytes := do
  Outcome.assert (isFinite bits)
  if bits >>> 63 ≠ 0 then do
    let t ← positive 63 (bits - 2 ^ 63)
    return 0x2D :: t
  else positive 64 bits

end Verif.Json.Grisu
