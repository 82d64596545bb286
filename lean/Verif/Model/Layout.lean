import Verif.Model.Outcome
/-
Model of how the structures of the headers lie in memory for the library, whose sources are compiled as C, and for a C++ program that includes the same headers:
/repo/include/hdbscan/outlier_score.h 53-80, cluster.h 54-90, undirected_graph.h 49-59, constraint.h 70-84, hdbscan.h 77-139, distance.h 64-74.

For C++ some of the structures have a virtual destructor. The layout is that of the x86-64 System V ABI and, for C++, of the Itanium C++ ABI: members in order of declaration, each at
the next multiple of its alignment; a structure with virtual functions and without bases begins with a pointer of 8 bytes.

Simplifications: memory is a list of bytes, a byte that was never written (padding) is `none`. Types are the default ones (`label_t`, `index_t` unsigned int, `distance_t` double).
-/
namespace Verif.Layout

/-- The size and alignment of the type of a member. -/
structure Field where
  size : Nat
  align : Nat
  deriving DecidableEq

/-- Pointers, `double`, `int64_t`, `size_t`. -/
def w8 : Field := ⟨8, 8⟩
/-- `unsigned int`, `int`, enumerations. -/
def w4 : Field := ⟨4, 4⟩

/-- A structure: its members, and whether its C++ declaration has virtual functions. -/
structure Decl where
  fields : List Field
  virt : Bool

/-- The next multiple of `a` from `o` on. -/
def alignUp (o a : Nat) : Nat := (o + (a - 1)) / a * a

/-- The offsets of the members from position `o` on. -/
def offsets (o : Nat) : List Field → List Nat
  | [] => []
  | f :: fs => alignUp o f.align :: offsets (alignUp o f.align + f.size) fs

/-- The position behind the last member. -/
def ending (o : Nat) : List Field → Nat
  | [] => o
  | f :: fs => ending (alignUp o f.align + f.size) fs

/-- The alignment of a structure. -/
def alignOf (fs : List Field) : Nat := (fs.map (·.align)).foldl max 1

/-- `sizeof` in C. -/
def cSize (d : Decl) : Nat := alignUp (ending 0 d.fields) (alignOf d.fields)
/-- The offsets of the members in C. -/
def cOffsets (d : Decl) : List Nat := offsets 0 d.fields

/-- The room for the pointer to the table of virtual functions. -/
def head (d : Decl) : Nat := if d.virt then 8 else 0
/-- `sizeof` in C++. -/
def cppSize (d : Decl) : Nat := alignUp (ending (head d) d.fields) (max (head d) (alignOf d.fields))
/-- The offsets of the members in C++. -/
def cppOffsets (d : Decl) : List Nat := offsets (head d) d.fields

/-- A block of memory. -/
abbrev Block (B : Type) := List (Option B)

/-- The bytes of the members (`vs`) from position `o` on, as the library writes them. -/
def store {B : Type} (o : Nat) : List Field → List (List B) → Block B
  | f :: fs, v :: vs => List.replicate (alignUp o f.align - o) none ++ v.map some ++ store (alignUp o f.align + f.size) fs vs
  | _, _ => []

/-- One structure in memory, with the padding at its end. -/
def element {B : Type} (d : Decl) (vs : List (List B)) : Block B :=
  store 0 d.fields vs ++ List.replicate (cSize d - ending 0 d.fields) none

/-- An array of structures (or a single one) that the library has allocated and filled. -/
def block {B : Type} (d : Decl) (arr : List (List (List B))) : Block B := arr.flatMap (element d)

/-- Read `n` bytes at offset `o` of a block. -/
def read {B : Type} (b : Block B) (o n : Nat) : Outcome (List (Option B)) :=
  if o + n ≤ b.length then .ok ((b.drop o).take n) else .ub "read outside the block"

/-- Member `j` of element `i`, read by the library: `p[i].member` in C. -/
def cRead {B : Type} (d : Decl) (b : Block B) (i j : Nat) : Outcome (List (Option B)) :=
  match (cOffsets d)[j]?, d.fields[j]? with
  | some o, some f => read b (i * cSize d + o) f.size
  | _, _ => .ub "no such member"

/-- Member `j` of element `i`, read by a C++ program: `p[i].member` in C++. -/
def cppRead {B : Type} (d : Decl) (b : Block B) (i j : Nat) : Outcome (List (Option B)) :=
  match (cppOffsets d)[j]?, d.fields[j]? with
  | some o, some f => read b (i * cppSize d + o) f.size
  | _, _ => .ub "no such member"

/-- `OutlierScore`: score, coreDistance, id; outlier_score.h 53-80. -/
def outlierScore : Decl := ⟨[w8, w8, w4], true⟩
/-- `UndirectedGraph`: numVertices, verticesA, verticesB, edgeWeights, edges; undirected_graph.h 49-59. -/
def undirectedGraph : Decl := ⟨[w4, w8, w8, w8, w8], true⟩
/-- `Cluster`: label, birthLevel, deathLevel, numPoints, offset, stability, propagatedStability, propagatedLowestChildDeathLevel, numConstraintsSatisfied,
    propagatedNumConstraintsSatisfied, virtualChildCluster, parent, propagatedDescendants, hasChildren; cluster.h 54-90. -/
def cluster : Decl := ⟨[w4, w8, w8, w4, w8, w8, w8, w8, w4, w4, w8, w8, w8, w4], true⟩
/-- `Constraint`: type, pointA, pointB; constraint.h 70-84. -/
def constraint : Decl := ⟨[w4, w4, w4], true⟩
/-- `Distance`: distances, coreDistances, rows, cols, internalRows, internalCols, numNeighbors, cal, datatype; distance.h 64-74. -/
def distance : Decl := ⟨[w8, w8, w4, w4, w4, w4, w4, w4, w4], false⟩
/-- `hdbscan`: distanceFunction, mst, constraints, coreDistances, clusters, outlierScores, clusterLabels, hierarchy, clusterStabilities, selfEdges, minPoints, minClusterSize,
    numPoints; hdbscan.h 128-139. -/
def hdbscan : Decl := ⟨[⟨cSize distance, 8⟩, w8, w8, w8, w8, w8, w8, w8, w8, w4, w4, w4, w4], false⟩
/-- `distance_values`, hdbscan.h 79-87. -/
def distanceValues : Decl := ⟨[w8, w8, w8, w8, w8, w8], false⟩
/-- `clustering_stats`, hdbscan.h 93-112. -/
def clusteringStats : Decl := ⟨[w4, ⟨48, 8⟩, ⟨48, 8⟩], false⟩
/-- `hierarchy_entry`, hdbscan.h 119-122. -/
def hierarchyEntry : Decl := ⟨[w8, w8], false⟩

end Verif.Layout
