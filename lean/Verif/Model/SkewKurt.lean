import Verif.Model.Stats
/-
Model of the two functions that compute skewness and kurtosis, /repo/src/hdbscan.c 1340-1355 and 1368-1406. Both are parallel regions without a loop: every thread executes the whole body.
The model has one step for every access to the four shared fields; `stats->count` and the standard deviations are only read. Threads take their steps in any order.

Simplifications: the accesses of a thread happen in the order of the program and one at a time (sequential consistency), a store stores a whole `double`.
-/
namespace Verif.Stat
variable {W : Type}

/-- The fields that are written: skewness and kurtosis, of core distances or of distances. -/
inductive Cell
  | coreSkew | intraSkew | coreKurt | intraKurt
  deriving DecidableEq

/-- One access. -/
inductive Act (W : Type)
  /-- store a value -/
  | put (c : Cell) (v : W)
  /-- load into the register for the field -/
  | get (c : Cell)
  /-- store the register minus a value -/
  | putSub (c : Cell) (t : W)

/-- A thread: what it still has to do, and its registers. -/
structure Th (W : Type) where
  rest : List (Act W)
  reg : Cell → W

/-- The threads and the memory. -/
structure Conf (W : Type) where
  ths : List (Th W)
  mem : Cell → W

/-- Changing one field. -/
def upd (m : Cell → W) (c : Cell) (v : W) : Cell → W := fun x => if x = c then v else m x

/-- The effect of an access on the registers and the memory. -/
def Act.run (o : Ops W) : Act W → (Cell → W) → (Cell → W) → (Cell → W) × (Cell → W)
  | .put c v, reg, mem => (reg, upd mem c v)
  | .get c, reg, mem => (upd reg c (mem c), mem)
  | .putSub c t, reg, mem => (reg, upd mem c (o.sub (reg c) t))

/-- Some thread makes its next access. -/
inductive Step (o : Ops W) : Conf W → Conf W → Prop
  | mk (l r : List (Th W)) (a : Act W) (rest : List (Act W)) (reg mem : Cell → W) :
      Step o ⟨l ++ ⟨a :: rest, reg⟩ :: r, mem⟩ ⟨l ++ ⟨rest, (a.run o reg mem).1⟩ :: r, (a.run o reg mem).2⟩

/-- `n` threads start to execute a body. -/
def start (n : Nat) (prog : List (Act W)) (reg mem : Cell → W) : Conf W := ⟨List.replicate n ⟨prog, reg⟩, mem⟩

/-- All have finished. -/
def Conf.done (s : Conf W) : Prop := ∀ t ∈ s.ths, t.rest = []

/-- 32-bit unsigned arithmetic. -/
def u32 (n : Nat) : Nat := n % 2 ^ 32

/-- The body of `hdbscan_skew_kurt_1`, hdbscan.c 1347-1351: count, standard deviations and sums of the core distances and the distances. -/
def skewKurt1 (o : Ops W) (n : Nat) (sdC sdD sumSC sumSD sumDC sumDD : W) : List (Act W) :=
  [.put .coreSkew (o.div sumSC (o.mul (o.ofNat n) (o.pow3 sdC))),
   .put .intraSkew (o.div sumSD (o.mul (o.ofNat n) (o.pow3 sdD))),
   .put .coreKurt (o.sub (o.div sumDC (o.mul (o.ofNat n) (o.pow4 sdC))) (o.ofNat 3)),
   .put .intraKurt (o.sub (o.div sumDD (o.mul (o.ofNat n) (o.pow4 sdD))) (o.ofNat 3))]

/-- `tmp1`, hdbscan.c 1379. -/
def tmp1 (o : Ops W) (n : Nat) : W := o.div (o.ofNat n) (o.ofNat (u32 ((n - 1) * (n - 2))))

/-- `tmp2`, hdbscan.c 1389. -/
def tmp2 (o : Ops W) (n : Nat) : W := o.div (o.mul (o.ofNat n) (o.ofNat (u32 (n + 1)))) (o.ofNat (u32 (u32 ((n - 1) * (n - 2)) * (n - 3))))

/-- `tmp3`, hdbscan.c 1395. -/
def tmp3 (o : Ops W) (n : Nat) : W :=
  o.div (o.mul (o.mul (o.ofNat 3) (o.sub (o.ofNat n) (o.ofNat 1))) (o.ofNat (n - 1))) (o.ofNat (u32 ((n - 2) * (n - 3))))

/-- The skewness part, hdbscan.c 1378-1385. -/
def skew2 (o : Ops W) (n : Nat) (sdC sdD sumSC sumSD : W) : List (Act W) :=
  if 2 ≤ n then
    [.put .coreSkew (o.mul (tmp1 o n) (o.div sumSC (o.pow3 sdC))), .put .intraSkew (o.mul (tmp1 o n) (o.div sumSD (o.pow3 sdD)))]
  else [.put .coreSkew (o.div o.zero o.zero), .put .intraSkew (o.div o.zero o.zero)]

/-- The kurtosis part, hdbscan.c 1388-1402. -/
def kurt2 (o : Ops W) (n : Nat) (sdC sdD sumDC sumDD : W) : List (Act W) :=
  if 3 ≤ n then
    [.put .coreKurt (o.mul (tmp2 o n) (o.div sumDC (o.pow4 sdC))), .put .intraKurt (o.mul (tmp2 o n) (o.div sumDD (o.pow4 sdD))),
     .get .coreKurt, .putSub .coreKurt (tmp3 o n), .get .intraKurt, .putSub .intraKurt (tmp3 o n)]
  else [.put .coreKurt (o.div o.zero o.zero), .put .intraKurt (o.div o.zero o.zero)]

/-- The body of `hdbscan_skew_kurt_2`, hdbscan.c 1375-1402. -/
def skewKurt2 (o : Ops W) (n : Nat) (sdC sdD sumSC sumSD sumDC sumDD : W) : List (Act W) :=
  skew2 o n sdC sdD sumSC sumSD ++ kurt2 o n sdC sdD sumDC sumDD

end Verif.Stat
