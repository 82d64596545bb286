import Verif.Model.HTable
/-
Model of /repo/modules/collections/src/primes.c and the table of /repo/modules/collections/include/collections/primes.h.
-/
namespace Verif

/-- The initialiser of `primes`, primes.h 79-90. -/
def primeInit : List Int := [
       3,5,7,11,13,17,19,23,29,31,37,41,43,47,53,59,61,67,
       71,73,79,83,89,97,101,103,107,109,113,127,131,137,139,149,151,157,163,167,
       173,179,181,191,193,197,199,211,223,227,229,233,239,241,251,257,263,269,271,277,
       281,283,293,307,311,313,317,331,337,347,349,353,359,367,373,379,383,389,397,401,
       409,419,421,431,433,439,443,449,457,461,463,467,479,487,491,499,503,509,521,523,
       541,547,557,563,569,571,577,587,593,599,601,607,613,617,619,631,641,643,647,653,
       659,661,673,677,683,691,701,709,719,727,733,739,743,751,757,761,769,773,787,797,
       809,811,821,823,827,829,839,853,857,859,863,877,881,883,887,907,911,919,929,937,
       941,947,953,967,971,977,983,991,997,1009,1013,1019,1021,1031,1033,1039,1049,1051,1061,1063,
       1069,1087,1091,1093,1097,1103,1109,1117,1123,1129,1151,1153,1163,1171,1181,1187,1193,1201,1213,1217]

/-- `primes[p_sz]`, primes.h 75-90: `p_sz` is 200 but only 198 values are listed, so the last two elements are zero. -/
def primes : List Int := primeInit ++ List.replicate (200 - primeInit.length) 0

/-- An element of the table at an `int32_t` index. -/
def primeAt (i : Int) : Outcome Int :=
  if i < 0 then .ub "negative index" else rd primes i.toNat

/-- The first test of `binary_search_primes`, primes.c 77:
    `primes[mid] == x || (primes[mid] >= x && primes[mid-1] < x)`, with C's short-circuit evaluation. -/
def primeHit (mid x : Int) : Outcome Bool := do
  let p ← primeAt mid
  if p = x then return true
  else if p ≥ x then do
    let q ← primeAt (mid - 1)
    return decide (q < x)
  else return false

/-- The second test, primes.c 83: `primes[mid] > x && primes[mid - 1] > x`. -/
def primeLeft (mid x : Int) : Outcome Bool := do
  let p ← primeAt mid
  if p > x then do
    let q ← primeAt (mid - 1)
    return decide (q > x)
  else return false

/-- `binary_search_primes`, primes.c 65-98; the recursion is bounded by `fuel`. -/
def binarySearchPrimes : (fuel : Nat) → (l r x : Int) → Outcome Int
  | 0, _, _, _ => .diverge
  | fuel + 1, l, r, x => do
    let p0 ← primeAt 0
    if l = 0 ∧ x ≤ p0 then return p0
    else if r ≥ l then do
      let mid := l + Int.tdiv (r - l) 2
      let hit ← primeHit mid x
      if hit then primeAt (mid - 1)
      else do
        let left ← primeLeft mid x
        if left then binarySearchPrimes fuel l (mid - 1) x
        else binarySearchPrimes fuel (mid + 1) r x
    else return 0

/-- `find_prime_less_than`, primes.c 103-111. -/
def findPrimeLessThan (num : Int) : Outcome Int := binarySearchPrimes 201 0 199 num

/-- One round of the inner loop of `get_prime`, primes.c 47-52: `for (int j = 0; i < n_primes; i++)` with `j = 0` and
    `n_primes = 0` throughout. Result: the value of `i` afterwards and whether `goto not_prime` was taken. -/
def getPrimeInner : (fuel : Nat) → (i : Int) → Outcome (Int × Bool)
  | 0, _ => .diverge
  | fuel + 1, i =>
    if i < 0 then do
      let p ← primeAt 0
      if Int.tmod i p = 0 then return (i, true)
      else getPrimeInner fuel (i + 1)
    else return (i, false)

/-- The outer loop of `get_prime`, primes.c 45-60. -/
def getPrimeOuter : (fuel : Nat) → (i : Int) → Outcome Int
  | 0, _ => .diverge
  | fuel + 1, i => do
    let (j, notPrime) ← getPrimeInner (fuel + 1) i
    if notPrime then getPrimeOuter fuel (j + 1) else return j

/-- `get_prime`, primes.c 41-63. `min + 1` overflows for `INT_MAX`. Fuel is the number of values `i` can take. -/
def getPrime (min : Int) : Outcome Int :=
  if min ≥ 2 ^ 31 - 1 then .ub "signed overflow"
  else getPrimeOuter ((-min).toNat + 2) (min + 1)

/-- `hashtable_init`, hashtable.c 102-105: the bucket count is truncated to `int32_t`, and the result widened to
    `size_t`. -/
def HTable.init {K : Type} (buckets : Nat) (kt dt : HType) : Outcome (HTable.Table K) := do
  let p ← findPrimeLessThan (asInt32 buckets)
  HTable.initSize (toSizeT p) kt dt

end Verif
