import Mathlib.Data.Rat.Floor
import Verif.Model.ClusterMap
import Verif.Model.Graph
import Verif.Model.Outlier
import Verif.Model.Stats
/-
Model of the functions that print results: `logger_write`, /repo/modules/utils/src/logger.c 49-121, the printing functions of /repo/src/hdbscan.c
1795-1980, /repo/src/distance.c 277-290 and /repo/src/undirected_graph.c 266-326, and the message of `cluster_detach_points`, /repo/src/cluster.c 131-133.
They format into character arrays of fixed length on the stack, so what matters is how long the texts are.

Simplifications: the library is compiled without DEBUG (the default), so that everything goes to the standard output; a `char` is a character;
printing to the standard output does not fail; the variable length array of `logger_write` fits on the stack; `stdout` and the files are the texts
written to them. The hash tables printed are `KMap`s (see `Verif.Model.ClusterMap`).
-/
namespace Verif.Print

abbrev Text := List Char

/-! ### Formatting -/

/-- A `double` as `printf` sees it: NaN and infinity with their sign, and a finite number as sign and magnitude. -/
inductive Dbl
  | nan (neg : Bool)
  | inf (neg : Bool)
  | fin (neg : Bool) (mag : Rat)
  deriving DecidableEq

/-- The sign character. -/
def sign (neg : Bool) : Text := if neg then ['-'] else []

/-- The integer nearest to a rational number that is not negative, ties to the even one (the default rounding mode). -/
def nearest (q : Rat) : Nat :=
  let n := q.floor.toNat
  let r := q - n
  if r < 1 / 2 then n else if 1 / 2 < r then n + 1 else if n % 2 = 0 then n else n + 1

/-- The decimal digits of `n`, at least `k` of them. -/
def digitsPad (k n : Nat) : Text :=
  let d := Nat.toDigits 10 n
  List.replicate (k - d.length) '0' ++ d

/-- The conversion `%.pf` for a positive precision `p` (`%f` is `%.6f`): exact decimal digits, correctly rounded, as the GNU C library prints them. -/
def fmtF (p : Nat) : Dbl → Text
  | .nan neg => sign neg ++ "nan".toList
  | .inf neg => sign neg ++ "inf".toList
  | .fin neg mag =>
    let n := nearest (mag * 10 ^ p)
    sign neg ++ (Nat.toDigits 10 (n / 10 ^ p) ++ '.' :: digitsPad p (n % 10 ^ p))

/-- A minimal field width: padding with blanks on the left, as in `%6f`. -/
def width (w : Nat) (t : Text) : Text := List.replicate (w - t.length) ' ' ++ t

/-- The conversion `%d` or `%ld` of a value in the range of the type. -/
def fmtI (k : Int) : Text := if k < 0 then '-' :: Nat.toDigits 10 k.natAbs else Nat.toDigits 10 k.natAbs

/-- The conversion `%d` applied to an `unsigned int` (labels, indices, counts). -/
def fmtU (n : Nat) : Text := fmtI (asInt32 n)

/-- The conversion `%ld` applied to a `size_t` below `2^63`. -/
def fmtL (n : Nat) : Text := fmtI n

/-! ### Character arrays -/

/-- A character array; `none` is an indeterminate element. -/
abbrev Buf := List (Option Char)

/-- `char s[n];` -/
def alloc (n : Nat) : Buf := List.replicate n none

/-- `sprintf(s + off, ...)` producing `t`: the characters and a terminating NUL. -/
def sprintf (b : Buf) (off : Nat) (t : Text) : Outcome Buf :=
  if off + t.length + 1 ≤ b.length then .ok (b.take off ++ ((t ++ ['\x00']).map some ++ b.drop (off + t.length + 1)))
  else .ub "write outside a character array"

/-- The characters before the terminating NUL. -/
def cstr : Buf → Outcome Text
  | [] => .ub "read outside a character array"
  | none :: _ => .ub "read of an indeterminate value"
  | some c :: r => if c = '\x00' then .ok [] else do
    let t ← cstr r
    return c :: t

/-- `sprintf(s + strlen(s), ...)` -/
def append (b : Buf) (t : Text) : Outcome Buf := do
  let s ← cstr b
  sprintf b s.length t

/-- `strcat(s, t)` -/
def strcat (b : Buf) (t : Text) : Outcome Buf := append b t

/-! ### Output -/

/-- What the program has written: the standard output and the files (name, text), and how often it has asked for the date. -/
structure World where
  out : Text
  files : List (Text × Text)
  asked : Nat
  deriving DecidableEq

/-- The system: the text `strftime` produces at the `k`-th request, and the files that can be created. -/
structure Sys where
  date : Nat → Text
  opens : Text → Bool

/-- `printf` of a text. -/
def put (w : World) (t : Text) : World := { w with out := w.out ++ t }

/-- `enum LOGTYPE`, /repo/modules/utils/include/hdbscan/logger.h. -/
inductive LogType | fatal | error | warn | info | none
  deriving DecidableEq

/-- The name of a type of message, logger.c 91-101. -/
def LogType.name : LogType → Text
  | .fatal => "FATAL".toList
  | .error => "ERROR".toList
  | .info => "INFO".toList
  | .warn => "WARN".toList
  | .none => []

/-- `getDateString`, logger.c 49-60: `strftime` into 100 characters; when the text does not fit the contents are indeterminate. -/
def getDate (sys : Sys) (w : World) : Outcome (Text × World) :=
  if (sys.date w.asked).length + 1 ≤ 100 then .ok (sys.date w.asked, { w with asked := w.asked + 1 })
  else .ub "read of an indeterminate value"

/-- `logger_write`, logger.c 81-121, for a message without NUL characters. -/
def logger (sys : Sys) (ty : LogType) (msg : Text) (w : World) : Outcome World := do
  let (date, w1) ← getDate sys w
  if ty = .none then return put w1 msg
  else do
    let b ← sprintf (alloc (date.length + ty.name.length + msg.length + 10)) 0 (date ++ " ".toList ++ ty.name ++ ": ".toList ++ msg)
    let t ← cstr b
    return put w1 t

/-- `logger_write(NONE, s)` for a character array. -/
def logBuf (sys : Sys) (b : Buf) (w : World) : Outcome World := do
  let t ← cstr b
  logger sys .none t w

/-- `sprintf(s, ...); logger_write(NONE, s);` with a text `t`: the pair of statements most functions use. The array keeps its contents. -/
def say (sys : Sys) (b : Buf) (t : Text) (w : World) : Outcome (Buf × World) := do
  let b' ← sprintf b 0 t
  let w' ← logBuf sys b' w
  return (b', w')

/-- A loop of such pairs, one text for each iteration. -/
def sayAll (sys : Sys) : List Text → Buf → World → Outcome (Buf × World)
  | [], b, w => .ok (b, w)
  | t :: r, b, w => do
    let (b', w') ← say sys b t w
    sayAll sys r b' w'

/-! ### The cluster map -/

/-- The loop of `hdbscan_print_cluster_map`, hdbscan.c 1801-1819; `s` is the array of 50 characters. -/
def clusterMapLoop (sys : Sys) : KMap (List Nat) → Buf → World → Outcome World
  | [], _, w => .ok w
  | (key, l) :: r, b, w => do
    let (b1, w1) ← say sys b (fmtU key ++ " -> [".toList) w
    let (b2, w2) ← sayAll sys (l.map (fun i => fmtU i ++ " ".toList)) b1 w1
    let w3 ← logger sys .none "]\n".toList w2
    clusterMapLoop sys r b2 w3

/-- `hdbscan_print_cluster_map`, hdbscan.c 1795-1820. -/
def clusterMap (sys : Sys) (m : KMap (List Nat)) (w : World) : Outcome World := clusterMapLoop sys m (alloc 50) w

/-- `hdbscan_print_cluster_sizes`, hdbscan.c 1827-1841. -/
def clusterSizes (sys : Sys) (m : KMap (List Nat)) (w : World) : Outcome World := do
  let (_, w') ← sayAll sys (m.map (fun e => fmtU e.1 ++ " : ".toList ++ fmtL e.2.length ++ "\n".toList)) (alloc 50) w
  return w'

/-! ### The hierarchy -/
variable {W T : Type}

/-- The lines of `hdbscan_print_hierarchies` for the levels on the standard output, hdbscan.c 1877-1902 with `hierarchyFile` NULL. -/
def levels (view : W → Dbl) (numPoints : Nat) : KMap (W × List Nat) → World → Outcome World
  | [], w => .ok w
  | (level, weight, labels) :: r, w => do
    let w1 := put w (fmtL level ++ " : ".toList ++ fmtF 15 (view weight) ++ " -> [".toList)
    let ls ← (List.range numPoints).mapM (fun j => rd labels j)
    let w2 := put w1 (ls.flatMap (fun x => fmtU x ++ " ".toList) ++ "]\n".toList)
    levels view numPoints r w2

/-- The lines for the levels in the hierarchy file, hdbscan.c 1877-1902 with `hierarchyFile` open. -/
def levelsFile (view : W → Dbl) (numPoints : Nat) : KMap (W × List Nat) → Outcome Text
  | [] => .ok []
  | (_, weight, labels) :: r => do
    let ls ← (List.range numPoints).mapM (fun j => rd labels j)
    let rest ← levelsFile view numPoints r
    return fmtF 15 (view weight) ++ ",".toList ++ ls.flatMap (fun x => fmtU x ++ ",".toList) ++ "\n".toList ++ rest

/-- `fopen(name, "w")`, writing `t`, and `fclose`; writing to a file that could not be opened is undefined. -/
def writeFile (sys : Sys) (name t : Text) (w : World) : Outcome World :=
  if sys.opens name then .ok { w with files := w.files ++ [(name, t)] } else .ub "fprintf to a null pointer"

/-- The part of `hdbscan_print_hierarchies` executed for a file name, hdbscan.c 1856-1870: the name of the hierarchy file and the world. -/
def openFiles (sys : Sys) (size : Nat) (filename : Text) (w : World) : Outcome (Text × World) := do
  let b1 ← strcat (alloc 300) filename
  let b2 ← strcat b1 "_visualization.vis".toList
  let vis ← cstr b2
  let w1 ← writeFile sys vis ("1\n".toList ++ fmtL size ++ "\n".toList) w
  let c1 ← strcat (alloc 100) filename
  let c2 ← strcat c1 "_hierarchy.csv".toList
  let hier ← cstr c2
  return (hier, w1)

/-- The line that begins the list of the levels, hdbscan.c 1873. -/
def hierarchyTitle : Text :=
  "\n////////////////////////////////////////////////////// Printing Hierarchies //////////////////////////////////////////////////////\n".toList

/-- The line that ends the lists of levels and scores, hdbscan.c 1908 and 1923, and the statistics, 1977. -/
def rule : Text :=
  "//////////////////////////////////////////////////////////////////////////////////////////////////////////////////////////////////////\n\n".toList

/-- The beginning of `hdbscan_print_hierarchies`, hdbscan.c 1853-1870: the hierarchy file, `none` (NULL) when there is no file name or the file
    cannot be created. -/
def chooseFile (sys : Sys) (size : Nat) (filename : Option Text) (w : World) : Outcome (Option Text × World) :=
  match filename with
  | none => .ok (none, w)
  | some f => do
    let (name, w1) ← openFiles sys size f w
    return (if sys.opens name then some name else none, w1)

/-- The loop over the levels, hdbscan.c 1877-1902, and `fclose`, 1904-1906. -/
def putLevels (view : W → Dbl) (h : KMap (W × List Nat)) (numPoints : Nat) (file : Option Text) (w : World) : Outcome World :=
  match file with
  | none => levels view numPoints h w
  | some name => do
    let t ← levelsFile view numPoints h
    return { w with files := w.files ++ [(name, t)] }

/-- `hdbscan_print_hierarchies`, hdbscan.c 1850-1910; `none` is a null pointer for the file name. -/
def hierarchies (sys : Sys) (view : W → Dbl) (h : KMap (W × List Nat)) (numPoints : Nat) (filename : Option Text) (w : World) : Outcome World := do
  let (file, w1) ← chooseFile sys h.length filename w
  let w2 ← logger sys .info hierarchyTitle w1
  let b ← sprintf (alloc 100) 0 ("hierarchy size = ".toList ++ fmtL h.length ++ "\n".toList)
  let t ← cstr b
  let w3 ← logger sys .info t w2
  let w4 ← putLevels view h numPoints file w3
  logger sys .info rule w4

/-! ### Outlier scores -/

/-- The line that begins the list of the scores, hdbscan.c 1915. -/
def outlierTitle : Text :=
  "\n////////////////////////////////////////////////////// Printing outlier Scores //////////////////////////////////////////////////////\n".toList

/-- One line of the list, hdbscan.c 1919. -/
def outlierLine (view : W → Dbl) (viewT : T → Dbl) (s : OScore W T) : Text :=
  fmtL s.id ++ " : (".toList ++ width 6 (fmtF 6 (view s.core)) ++ ", ".toList ++ width 6 (fmtF 6 (viewT s.score)) ++ ")\n".toList

/-- `hdbscan_print_outlier_scores`, hdbscan.c 1912-1925. -/
def outlierScores (sys : Sys) (view : W → Dbl) (viewT : T → Dbl) (scores : List (OScore W T)) (numPoints : Nat) (w : World) : Outcome World := do
  let w1 ← logger sys .none outlierTitle w
  let ss ← (List.range numPoints).mapM (fun i => rd scores i)
  let (_, w2) ← sayAll sys (ss.map (outlierLine view viewT)) (alloc 100) w1
  logger sys .none rule w2

/-! ### Distances of clusters -/

/-- The line that begins the list, hdbscan.c 1934. -/
def distanceTitle : Text :=
  "\n/////////////////////////////////////////////////////// Printing Distances ///////////////////////////////////////////////////////\n".toList

/-- The line that ends the list, hdbscan.c 1950. -/
def distanceRule : Text :=
  "///////////////////////////////////////////////////////////////////////////////////////////////////////////////////////////////////////\n\n".toList

/-- The record of one cluster, formatted piece by piece into the same array, hdbscan.c 1942-1945. -/
def distanceRecord (view : W → Dbl) (key : Nat) (v : DistVals W) (b : Buf) : Outcome Buf := do
  let b1 ← sprintf b 0 (fmtU key ++ " -> {\n".toList)
  let b2 ← append b1 ("\tmin_cr : ".toList ++ fmtF 6 (view v.minCr) ++ ", max_cr : ".toList ++ fmtF 6 (view v.maxCr) ++
    ", cr_confidence : ".toList ++ fmtF 6 (view v.crConf) ++ "\n".toList)
  let b3 ← append b2 ("\tmin_dr : ".toList ++ fmtF 6 (view v.minDr) ++ ", max_dr : ".toList ++ fmtF 6 (view v.maxDr) ++
    ", dr_confidence : ".toList ++ fmtF 6 (view v.drConf) ++ "\n".toList)
  append b3 "}\n\n".toList

/-- The loop over the clusters, hdbscan.c 1936-1948. -/
def distanceLoop (sys : Sys) (view : W → Dbl) : KMap (DistVals W) → Buf → World → Outcome World
  | [], _, w => .ok w
  | (key, v) :: r, b, w => do
    let b' ← distanceRecord view key v b
    let w' ← logBuf sys b' w
    distanceLoop sys view r b' w'

/-- `hdbscan_print_distance_map`, hdbscan.c 1932-1952. -/
def distanceMap (sys : Sys) (view : W → Dbl) (m : KMap (DistVals W)) (w : World) : Outcome World := do
  let w1 ← logger sys .none distanceTitle w
  let w2 ← distanceLoop sys view m (alloc 512) w1
  logger sys .none distanceRule w2

/-! ### Statistics -/

/-- The texts appended to the array for one kind of distances, hdbscan.c 1963-1968 and 1970-1975; `last` ends the last one. -/
def statLines (view : W → Dbl) (kind last : Text) (v : Stat.Vals W) : List Text :=
  [ kind ++ " Distances - Max \t\t\t: ".toList ++ fmtF 5 (view v.max) ++ "\n".toList
  , kind ++ " Distances - Mean \t\t\t: ".toList ++ fmtF 5 (view v.mean) ++ "\n".toList
  , kind ++ " Distances - Skewness \t\t: ".toList ++ fmtF 5 (view v.skewness) ++ "\n".toList
  , kind ++ " Distances - Kurtosis \t\t: ".toList ++ fmtF 5 (view v.kurtosis) ++ "\n".toList
  , kind ++ " Distances - Variance \t\t: ".toList ++ fmtF 5 (view v.variance) ++ "\n".toList
  , kind ++ " Distances - Standard Dev \t: ".toList ++ fmtF 5 (view v.standardDev) ++ last ]

/-- The first line, hdbscan.c 1961. -/
def statTitle : Text :=
  "////////////////////////////////////////////////////// Statistical Values ////////////////////////////////////////////////////////\n".toList

/-- A sequence of `sprintf(s + strlen(s), ...)`. -/
def appendAll : List Text → Buf → Outcome Buf
  | [], b => .ok b
  | t :: r, b => do
    let b' ← append b t
    appendAll r b'

/-- `hdbscan_print_stats`, hdbscan.c 1959-1980. -/
def stats (sys : Sys) (view : W → Dbl) (s : Stat.Stats W) (w : World) : Outcome World := do
  let b1 ← sprintf (alloc 1200) 0 statTitle
  let b2 ← appendAll ([ "Cluster Count \t\t\t\t\t: ".toList ++ fmtU s.count ++ "\n".toList ] ++ statLines view "Core".toList "\n\n".toList s.core ++
    statLines view "Intra".toList "\n".toList s.intra ++ [rule]) b1
  logBuf sys b2 w

/-! ### Distances and graphs -/

/-- The texts of the inner loop of `distances_print`, distance.c 283-286. -/
def distanceTexts (view : W → Dbl) (zero : W) (dis : Distance W) (i : Nat) : List Nat → Outcome (List Text)
  | [] => .ok []
  | j :: r => do
    let d ← dis.get zero i j
    let ts ← distanceTexts view zero dis i r
    return (fmtF 6 (view d) ++ " ".toList) :: ts

/-- The loop of `distances_print` over the rows from `i` on, distance.c 280-289. The texts of a row are computed before they are printed; since
    every outcome other than `ok` ends the program, this does not change whether the call is defined. -/
def distanceRows (sys : Sys) (view : W → Dbl) (zero : W) (dis : Distance W) : (count i : Nat) → Buf → World → Outcome World
  | 0, _, _, w => .ok w
  | count + 1, i, b, w => do
    let w1 ← logger sys .none "[".toList w
    let ts ← distanceTexts view zero dis i ((List.range dis.rows).filter (fun j => i < j))
    let (b', w2) ← sayAll sys ts b w1
    let w3 ← logger sys .none "]\n".toList w2
    distanceRows sys view zero dis count (i + 1) b' w3

/-- `distances_print`, distance.c 277-290. -/
def distances (sys : Sys) (view : W → Dbl) (zero : W) (dis : Distance W) (w : World) : Outcome World :=
  distanceRows sys view zero dis dis.rows 0 (alloc 20) w

/-- The loop over the adjacency lists in `graph_print`, undirected_graph.c 312-324. -/
def graphRows (sys : Sys) : List (List Nat) → Buf → World → Outcome World
  | [], _, w => .ok w
  | l :: r, b, w => do
    let w1 ← logger sys .none "[".toList w
    let (b', w2) ← sayAll sys (l.map (fun i => fmtU i ++ ", ".toList)) b w1
    let w3 ← logger sys .none "]\n".toList w2
    graphRows sys r b' w3

/-- The first line of `graph_print`, undirected_graph.c 272-274. -/
def graphHead (g : Graph W) : Text :=
  "numVertices: ".toList ++ fmtU g.numVertices ++ ", verticesA.length: ".toList ++ fmtL g.va.length ++ ",  verticesB.length: ".toList ++
    fmtL g.vb.length ++ ", edgeWeights.length: ".toList ++ fmtL g.wt.length ++ ", edges.length: ".toList ++ fmtU g.numVertices ++ "\n".toList

/-- `graph_print`, undirected_graph.c 266-326, for a graph with `numVertices` adjacency lists. -/
def graph (sys : Sys) (view : W → Dbl) (g : Graph W) (w : World) : Outcome World := do
  let b1 ← sprintf (alloc 300) 0 (graphHead g)
  let b2 ← append b1 "\nVertices A\n".toList
  let w1 ← logBuf sys b2 w
  let w2 := put w1 (g.va.flatMap (fun i => fmtU i ++ ", ".toList))
  let (b3, w3) ← say sys b2 "\n\nVertices B\n".toList w2
  let (b4, w4) ← sayAll sys (g.vb.map (fun i => fmtU i ++ ", ".toList)) b3 w3
  let (b5, w5) ← say sys b4 "\n\nnedgeWeights\n".toList w4
  let (b6, w6) ← sayAll sys (g.wt.map (fun x => fmtF 6 (view x) ++ ", ".toList)) b5 w5
  let (b7, w7) ← say sys b6 "\n\nEdges\n".toList w6
  graphRows sys g.edges b7 w7

/-- The message of `cluster_detach_points`, cluster.c 131-133. -/
def detachMessage (sys : Sys) (label numPoints : Nat) (w : World) : Outcome World := do
  let b ← sprintf (alloc 100) 0 ("cluster_detach_points - Cluster ".toList ++ fmtU label ++ " has ".toList ++ fmtU numPoints ++ " points.\n".toList)
  let t ← cstr b
  logger sys .fatal t w

end Verif.Print
