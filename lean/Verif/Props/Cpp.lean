import Verif.Lemmas.Cpp
/-
C85: C++ objects release their memory exactly once.
-/
namespace Verif.Props
open Mem Spec

/-- **C85, the part that holds.** Every program that uses its C++ objects tidily - however many there are and however their calls are mixed - meets no double free, no use of
    released memory and no unassigned pointer, and leaves exactly the blocks that were there before.
    Missing: objects that are never run, copies that are not run, `clean()` and objects that are run twice, for all of which the claim is false (`C85_unused_violated`,
    `C85_copy_violated`, `C85_clean_violated`, `C85_second_run_leaks`). -/
theorem C85_tidy_partial (as : List Act) (ht : Tidy as) (h : Heap) (hh : HeapOk h) : ∃ vs h', program as h = .ok (vs, h') ∧ h'.live = h.live := by
  obtain ⟨ps, hr, hl⟩ := ht
  obtain ⟨vs, h', zs, e, i⟩ := acts_defined (inv_start hh) hr
  refine ⟨vs, h', e, ?_⟩
  have hz : owns blocks zs = 0 := by
    have : ∀ z ∈ zs, blocks z = 0 := by
      intro z hz
      have h1 : z.1 ∈ ps := by rw [i.phases]; exact List.mem_map_of_mem hz
      obtain ⟨p, v⟩ := z
      have h2 : p = .left := hl _ h1
      subst h2
      rfl
    exact owns_none this
  rw [i.live, hz, zero_add]

/-- At every moment of a tidy program its objects exist: the program goes on. -/
theorem C85_any_moment_partial (as : List Act) (ps : List CppPhase) (hr : Reaches as ps) (h : Heap) (hh : HeapOk h) :
    ∃ vs h', program as h = .ok (vs, h') ∧ vs.length = ps.length ∧ ∀ b ∈ h.live, b ∈ h'.live := by
  obtain ⟨vs, h', zs, e, i⟩ := acts_defined (inv_start hh) hr
  refine ⟨vs, h', e, by rw [i.phases, i.vars]; simp, fun b hb => by rw [i.live]; exact Multiset.mem_add.2 (.inr hb)⟩

/-- Two objects and a copy whose calls are mixed. -/
example : Tidy [.make, .run 0 ⟨6, 4, 5, 2⟩ 20, .make, .copyOf 0, .run 1 ⟨3, 2, 3, 1⟩ 9, .reRun 0 ⟨1, 1, 2, 1⟩, .run 2 ⟨3, 2, 3, 1⟩ 9, .leave 2, .leave 0, .leave 1] :=
  ⟨[.left, .left, .left], by unfold Reaches; decide, by decide⟩

/-- **C85 is violated** by every program in which the life of an object ends that was never run: the destructor reads a pointer that was never assigned. -/
theorem C85_unused_violated (as : List Act) (ps : List CppPhase) (hr : Reaches as ps) (x : Nat) (hx : ps[x]? = some .made) (h : Heap) (hh : HeapOk h) :
    ∃ w, program (as ++ [.leave x]) h = .ub w := by
  obtain ⟨vs, h1, zs, e, i⟩ := acts_defined (inv_start hh) hr
  obtain ⟨o, hz, hv, hc, hm, hla, hou, hd, hk⟩ := i.at hx (by decide)
  obtain ⟨r, hl, _⟩ := i.put hz
  have hs : o.self ∈ h1.live := by rw [hl]; simp [blocks]
  obtain ⟨w, hw⟩ := minimalClean_new (o := { o with distances := .null, core := .null }) (h := h1) hs hm hla hou
  refine ⟨w, (acts_append as _ [] h e).trans (bind_ub ((bind_ok (var_eq hv h1)).trans (bind_ub (bind_ub ?_))))⟩
  refine (bind_ok (use_live hs)).trans ((bind_ok (a := ()) (h1 := h1) ?_).trans ((bind_ok (a := ()) (h1 := h1) ?_).trans (bind_ub hw)))
  · rw [hd]; rfl
  · rw [hk]; rfl

/-- **C85 is violated** by every program that copies an object and lets both lives end: the blocks are released twice. -/
theorem C85_copy_violated (as : List Act) (ps : List CppPhase) (hr : Reaches as ps) (x : Nat) (hx : ps[x]? = some .ready) (h : Heap) (hh : HeapOk h) :
    ∃ w, program (as ++ [.copyOf x, .leave ps.length, .leave x]) h = .ub w := by
  obtain ⟨vs, h1, zs, e, i⟩ := acts_defined (inv_start hh) hr
  obtain ⟨o, hz, hv, hf⟩ := i.at hx (by decide)
  have hready : o.Ready := hf
  obtain ⟨r, hl, _⟩ := i.put hz
  have hb : blocks (.ready, some o) = o.own := rfl
  rw [hb] at hl
  obtain ⟨g, hg⟩ := hready.mst
  obtain ⟨d, hd⟩ := hready.distances
  have hs : o.self ∈ h1.live := by rw [hl]; simp [own_self o]
  obtain ⟨b, h2, e2, ho2, _, hl2, _⟩ := Tri.alloc h1 i.heap h1.live (by abel)
  let o' : Obj := { o with self := b }
  have hlen : ps.length = vs.length := by rw [i.phases, i.vars]; simp
  have hrd : readPtr o.mst h1 = .ok ((), h1) := by rw [hg]; rfl
  have hcopy : act vs (.copyOf x) h1 = .ok (vs ++ [some o'], h2) :=
    (bind_ok (var_eq hv h1)).trans ((bind_ok (a := o') (h1 := h2) ((bind_ok (use_live hs)).trans ((bind_ok hrd).trans ((bind_ok e2).trans rfl)))).trans rfl)
  have hv' : (vs ++ [some o'])[ps.length]? = some (some o') := by rw [hlen]; simp
  have hown : h2.live = o'.own + ({o.self} + (r + h.live)) := by
    rw [hl2, hl]
    have : o'.parts = o.parts := rfl
    simp only [Obj.own, this]
    show ({b} : Multiset Nat) + _ = _
    abel
  have hr' : o'.Ready := ⟨hready.distances, hready.core, hready.mst, hready.constraints, hready.clusters, hready.outliers, hready.labels, hready.hierarchy, hready.stabilities, hready.points⟩
  obtain ⟨_, h3, e3, ho3, _, hl3, _⟩ := tri_leave (Ready.set hr') h2 ho2 _ hown
  have hleave : act (vs ++ [some o']) (.leave ps.length) h2 = .ok ((vs ++ [some o']).set ps.length none, h3) := (bind_ok (var_eq hv' h2)).trans ((bind_ok e3).trans rfl)
  have hxl : x < vs.length := by
    rw [List.getElem?_eq_some_iff] at hv
    exact hv.1
  have hv2 : ((vs ++ [some o']).set ps.length none)[x]? = some (some o) := by
    rw [List.getElem?_set_ne (by omega), List.getElem?_append_left hxl, hv]
  have hs3 : o.self ∈ h3.live := by rw [hl3]; simp
  have hd3 : d ∉ h3.live := by
    have hn := ho2.nodup
    rw [hown] at hn
    have hdm : d ∈ o'.own := by
      have : d ∈ o'.parts := by
        have : o'.distances = .at d := hd
        simp [Obj.parts, this, Ptr.own]
      simp [Obj.own, this]
    rw [hl3]
    show d ∉ (0 : Multiset Nat) + _
    rw [zero_add]
    rw [Multiset.nodup_add] at hn
    exact fun hin => (Multiset.disjoint_left.1 hn.2.2) hdm hin
  refine ⟨"free of a block that is not allocated", (acts_append as _ [] h e).trans ((bind_ok hcopy).trans ((bind_ok hleave).trans (bind_ub ((bind_ok (var_eq hv2 h3)).trans (bind_ub (bind_ub ?_))))))⟩
  refine (bind_ok (use_live hs3)).trans (bind_ub ?_)
  rw [hd]
  show free d h3 = _
  rw [free, if_neg hd3]

/-- **C85 is violated** by every program that calls `clean()` on an object: it releases the object itself, which the destructor then cleans. -/
theorem C85_clean_violated (as : List Act) (ps : List CppPhase) (hr : Reaches as ps) (x : Nat) (hx : ps[x]? = some .ready) (h : Heap) (hh : HeapOk h) :
    ∃ w, program (as ++ [.clean x, .leave x]) h = .ub w := by
  obtain ⟨vs, h1, zs, e, i⟩ := acts_defined (inv_start hh) hr
  obtain ⟨o, hz, hv, hf⟩ := i.at hx (by decide)
  obtain ⟨r, hl, _⟩ := i.put hz
  have hready : o.Ready := hf
  have hinv : Inv .ready o h1 (r + h.live) 0 := ⟨i.heap, by rw [hl, if_neg (by decide)]; show o.own + _ = _; abel, nofun, fun _ => hready, nofun, nofun⟩
  obtain ⟨o2, h2, e2, i2⟩ := destroy_inv hinv (by decide) (Ready.set hready)
  have hxl : x < vs.length := by
    rw [List.getElem?_eq_some_iff] at hv
    exact hv.1
  have hv2 : (vs.set x (some o2))[x]? = some (some o2) := by rw [List.getElem?_set_self hxl]
  have hclean : act vs (.clean x) h1 = .ok (vs.set x (some o2), h2) := (bind_ok (var_eq hv h1)).trans ((bind_ok e2).trans rfl)
  refine ⟨"use of a block that is not allocated", (acts_append as _ [] h e).trans ((bind_ok hclean).trans (bind_ub ((bind_ok (var_eq hv2 h2)).trans (bind_ub (bind_ub ?_)))))⟩
  exact bind_ub (use_dead (i2.gone rfl))

/-- **C85 is violated** by running an object twice: it returns, but blocks of the first run are left when all lives have ended. -/
theorem C85_second_run_leaks (s s' : Shape) (n n' : Nat) (hn : 5 ≤ n) (hn' : 5 ≤ n') (h : Heap) (hh : HeapOk h) :
    ∃ vs h', program [.make, .run 0 s n, .run 0 s' n', .leave 0] h = .ok (vs, h') ∧ h.live < h'.live := by
  have hr : Reaches [.make, .run 0 s n] [.ready] := by
    show (tidyStep [.made] (.run 0 s n)).bind _ = _
    rw [tidyStep, if_pos ⟨.inl rfl, hn⟩]
    rfl
  obtain ⟨vs, h1, zs, e, i⟩ := acts_defined (inv_start hh) hr
  obtain ⟨o, hz, hv, hf⟩ := i.at (x := 0) rfl (by decide)
  have hready : o.Ready := hf
  obtain ⟨r, hl, hput⟩ := i.put hz
  obtain ⟨o', h2, e2, ho2, _, hl2, hr2, _⟩ := tri_run s' n' hn' o hready.constraints h1 i.heap (o.parts + (r + h.live))
    (by rw [hl]; show o.own + _ = _; rw [Obj.own]; abel)
  have hxl : 0 < vs.length := by
    rw [List.getElem?_eq_some_iff] at hv
    exact hv.1
  have hv2 : (vs.set 0 (some o'))[0]? = some (some o') := by rw [List.getElem?_set_self hxl]
  obtain ⟨_, h3, e3, ho3, _, hl3, _⟩ := tri_leave (Ready.set hr2) h2 ho2 (o.parts + (r + h.live)) hl2
  have hrun : act vs (.run 0 s' n') h1 = .ok (vs.set 0 (some o'), h2) := (bind_ok (var_eq hv h1)).trans ((bind_ok e2).trans rfl)
  have hleave : act (vs.set 0 (some o')) (.leave 0) h2 = .ok ((vs.set 0 (some o')).set 0 none, h3) := (bind_ok (var_eq hv2 h2)).trans ((bind_ok e3).trans rfl)
  refine ⟨(vs.set 0 (some o')).set 0 none, h3, (acts_append [.make, .run 0 s n] [.run 0 s' n', .leave 0] [] h e).trans ((bind_ok hrun).trans ((bind_ok hleave).trans rfl)), ?_⟩
  rw [hl3]
  show h.live < (0 : Multiset Nat) + (o.parts + (r + h.live))
  rw [zero_add]
  have h0 : (0 : Multiset Nat) < o.parts := lt_of_le_of_ne (Multiset.zero_le _) (Ne.symm (parts_pos hready))
  calc h.live = 0 + h.live := (zero_add _).symm
    _ < o.parts + h.live := by exact add_lt_add_left h0 _
    _ ≤ o.parts + (r + h.live) := by
      have : o.parts + (r + h.live) = (o.parts + h.live) + r := by abel
      rw [this]; exact Multiset.le_add_right _ _

/-- The premises of the violations: a program with one object that has been run and one that has not. -/
example : Reaches [.make, .run 0 ⟨6, 4, 5, 2⟩ 20, .make] [.ready, .made] := by unfold Reaches; decide

end Verif.Props
