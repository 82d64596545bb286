import Verif.Model.PrintCpp
import Verif.Props.Print
/-
C77 for the C++ interface.
-/
namespace Verif.Props
open Verif Verif.Print Verif.Spec

variable {W : Type}

theorem cppPoints_out : ∀ (l : List Nat) (w : World), (∀ i ∈ l, i < 2 ^ 31) → cppPoints l w = put w (l.flatMap fun i => decimal i ++ " ".toList)
  | [], w, _ => by simp [cppPoints, put]
  | i :: r, w, h => by
    rw [cppPoints, cppPoints_out r _ fun x hx => h x (by simp [hx]), fmtU_small (h i (by simp))]
    simp only [put, List.flatMap_cons, List.append_assoc]

/-- **C77**, C++. `printClusterMap` prints what `hdbscan_print_cluster_map` prints: a line for each cluster, with its label and the indices of its points. -/
theorem C77_cpp_map : ∀ (m : KMap (List Nat)) (w : World), (∀ e ∈ m, e.1 < 2 ^ 31 ∧ ∀ i ∈ e.2, i < 2 ^ 31) → Prints (.ok (cppClusterMap m w)) w (m.flatMap mapLine)
  | [], w, _ => ⟨w, rfl, by simp, rfl⟩
  | (k, l) :: r, w, h => by
    obtain ⟨hk, hl⟩ := h (k, l) (by simp)
    obtain ⟨w', e, o, f⟩ := C77_cpp_map r (put (cppPoints l (put w (fmtU k ++ " -> [".toList))) "]\n".toList) fun e he => h e (by simp [he])
    refine ⟨w', e, ?_, ?_⟩
    · rw [o, cppPoints_out l _ hl, fmtU_small hk]
      simp only [put, List.flatMap_cons, mapLine, List.append_assoc]
    · rw [f, cppPoints_out l _ hl]
      rfl

/-- **C77**, C++. `printClusterSizes` prints a line for each cluster: its label and the number of its points. -/
theorem C77_cpp_sizes : ∀ (m : KMap (List Nat)) (w : World), (∀ e ∈ m, e.1 < 2 ^ 31) → Prints (.ok (cppClusterSizes m w)) w (m.flatMap sizeLine)
  | [], w, _ => ⟨w, rfl, by simp, rfl⟩
  | (k, l) :: r, w, h => by
    obtain ⟨w', e, o, f⟩ := C77_cpp_sizes r (put w (fmtU k ++ " : ".toList ++ fmtL l.length ++ "\n".toList)) fun e he => h e (by simp [he])
    refine ⟨w', e, ?_, f⟩
    rw [o, fmtU_small (h (k, l) (by simp)), fmtL_eq]
    simp only [put, List.flatMap_cons, sizeLine, List.append_assoc]

/-- **C77**, C++, for labels: the map created from labels and then printed shows all of them, for every range (the C function needs three points or more, C41). -/
theorem C77_cpp_labels (labels labels' : List Nat) (b e : Nat) (he : e ≤ labels.length) (he' : e ≤ labels'.length) (hs : e ≤ 2 ^ 31) (hl : ∀ x ∈ labels, x < 2 ^ 31) (hl' : ∀ x ∈ labels', x < 2 ^ 31) (w : World) :
    ∃ m m', CMap.cppCreate labels b e = .ok m ∧ CMap.cppCreate labels' b e = .ok m' ∧
      ((cppClusterMap m w).out = (cppClusterMap m' w).out → ∀ i : Nat, b ≤ i → i < e → labels[i]? = labels'[i]?) := by
  obtain ⟨m, e1, h1⟩ := C58_cpp_map labels b e he
  obtain ⟨m', e2, h2⟩ := C58_cpp_map labels' b e he'
  refine ⟨m, m', e1, e2, ?_⟩
  intro ho i hb hi
  rw [show max b e = e by omega] at h1 h2
  have small : ∀ {L : List Nat} {m : KMap (List Nat)}, IsClusterMap L b e m → (∀ x ∈ L, x < 2 ^ 31) → ∀ x ∈ m, x.1 < 2 ^ 31 ∧ ∀ i ∈ x.2, i < 2 ^ 31 := by
    intro L m h hL x hx
    obtain ⟨hl, hne⟩ := (h.lists x.1 x.2).1 ((KMap.lookup_mem h.ascending).2 hx)
    have hmem : ∀ i ∈ x.2, i < e ∧ L[i]? = some x.1 := by
      intro i hi
      rw [hl, carriers, List.mem_filter, List.mem_range] at hi
      simp only [decide_eq_true_eq] at hi
      exact ⟨by omega, by tauto⟩
    refine ⟨?_, fun i hi => by have := (hmem i hi).1; omega⟩
    obtain ⟨i, hi⟩ := List.exists_mem_of_ne_nil _ hne
    exact hL _ (List.mem_of_getElem? (hmem i hi).2)
  obtain ⟨_, a1, o1, _⟩ := C77_cpp_map m w (small h1 hl)
  obtain ⟨_, a2, o2, _⟩ := C77_cpp_map m' w (small h2 hl')
  cases a1
  cases a2
  rw [o1, o2] at ho
  have hm : m = m' := map_unique (List.append_cancel_left ho)
  subst hm
  obtain ⟨x, hx⟩ : ∃ x, labels[i]? = some x := ⟨_, List.getElem?_eq_getElem (by omega)⟩
  have hc : i ∈ carriers labels b e x := by
    rw [carriers, List.mem_filter, List.mem_range]; simp [hi, hb, hx]
  have hk : m.lookup x = some (carriers labels b e x) := (h1.lists _ _).2 ⟨rfl, List.ne_nil_of_mem hc⟩
  have := ((h2.lists _ _).1 hk).1
  rw [this, carriers, List.mem_filter] at hc
  simp only [decide_eq_true_eq] at hc
  rw [hx, hc.2.2]

example : (cppClusterMap [(0, [4, 12]), (2, [0, 1, 10]), (7, [3])] ⟨[], [], 0⟩).out = "0 -> [4 12 ]\n2 -> [0 1 10 ]\n7 -> [3 ]\n".toList := by decide +kernel
example : (cppClusterSizes [(0, [4, 12]), (2, [0, 1, 10]), (7, [3])] ⟨[], [], 0⟩).out = "0 : 2\n2 : 3\n7 : 1\n".toList := by decide +kernel
example := C77_cpp_labels [2, 0] [0, 2] 0 2 (by decide) (by decide) (by decide) (by decide) (by decide) ⟨[], [], 0⟩

/-! ### Distances -/

/-- What a reader sees of the distances of a cluster: the six values with six decimal places. -/
def shown (view : W → Dbl) (e : Nat × DistVals W) : Nat × List Text :=
  (e.1, [fmtF 6 (view e.2.minCr), fmtF 6 (view e.2.maxCr), fmtF 6 (view e.2.crConf), fmtF 6 (view e.2.minDr), fmtF 6 (view e.2.maxDr), fmtF 6 (view e.2.drConf)])

/-- The lines for a cluster. -/
def distanceLines (view : W → Dbl) (e : Nat × DistVals W) : Text :=
  decimal e.1 ++ ' ' :: ("-> {\nmin_cr : ".toList ++ (fmtF 6 (view e.2.minCr) ++ ',' :: (" max_cr : ".toList ++ (fmtF 6 (view e.2.maxCr) ++ ',' :: (" cr_confidence : ".toList ++
    (fmtF 6 (view e.2.crConf) ++ '\n' :: ("min_dr : ".toList ++ (fmtF 6 (view e.2.minDr) ++ ',' :: (" max_dr : ".toList ++ (fmtF 6 (view e.2.maxDr) ++ ',' :: (" dr_confidence : ".toList ++
    (fmtF 6 (view e.2.drConf) ++ '\n' :: "}\n\n".toList))))))))))))

theorem cppDistanceLoop_out (view : W → Dbl) : ∀ (m : KMap (DistVals W)) (w : World), (∀ e ∈ m, e.1 < 2 ^ 31) → cppDistanceLoop view m w = put w (m.flatMap (distanceLines view))
  | [], w, _ => by simp [cppDistanceLoop, put]
  | (k, v) :: r, w, h => by
    have e1 : " -> {\n".toList ++ "min_cr : ".toList = ' ' :: "-> {\nmin_cr : ".toList := by decide
    have e2 : ", max_cr : ".toList = ',' :: " max_cr : ".toList := by decide
    have e3 : ", cr_confidence : ".toList = ',' :: " cr_confidence : ".toList := by decide
    have e4 : ", max_dr : ".toList = ',' :: " max_dr : ".toList := by decide
    have e5 : ", dr_confidence : ".toList = ',' :: " dr_confidence : ".toList := by decide
    have e6 : "\n".toList = ['\n'] := by decide
    have e1' : ∀ t : Text, " -> {\n".toList ++ ("min_cr : ".toList ++ t) = ' ' :: ("-> {\nmin_cr : ".toList ++ t) := by
      intro t; rw [← List.append_assoc, e1]; rfl
    rw [cppDistanceLoop, cppDistanceLoop_out view r _ fun e he => h e (by simp [he]), fmtU_small (h (k, v) (by simp))]
    simp only [put, List.flatMap_cons, distanceLines, e2, e3, e4, e5, e6, List.append_assoc, e1', List.cons_append, List.nil_append]

theorem fmtF_chars (p : Nat) (x : Dbl) (c : Char) (h : c ∈ fmtF p x) : c.isDigit = true ∨ c ∈ ['-', '.', 'n', 'a', 'i', 'f'] := by
  have hs : ∀ b, c ∈ sign b → c = '-' := by intro b; cases b <;> simp [sign]
  have hd : ∀ n, c ∈ Nat.toDigits 10 n → c.isDigit = true := fun n h => Nat.isDigit_of_mem_toDigits (by decide) (by decide) h
  cases x with
  | nan b =>
    rcases List.mem_append.1 h with h | h
    · exact .inr (by simp [hs b h])
    · right; revert h; simp; tauto
  | inf b =>
    rcases List.mem_append.1 h with h | h
    · exact .inr (by simp [hs b h])
    · right; revert h; simp; tauto
  | fin b q =>
    simp only [fmtF, digitsPad, List.mem_append, List.mem_cons, List.mem_replicate] at h
    rcases h with h | h | h | h | h
    · exact .inr (by simp [hs b h])
    · exact .inl (hd _ h)
    · exact .inr (by simp [h])
    · exact .inl (by rw [h.2]; decide)
    · exact .inl (hd _ h)

theorem fmtF_comma (p : Nat) (x : Dbl) : ',' ∉ fmtF p x := fun h => absurd (fmtF_chars p x _ h) (by decide)

theorem fmtF_line (p : Nat) (x : Dbl) : '\n' ∉ fmtF p x := fun h => absurd (fmtF_chars p x _ h) (by decide)

theorem distanceLines_unique (view : W → Dbl) (t : Text) : ∀ m m' : KMap (DistVals W), m.flatMap (distanceLines view) ++ '/' :: t = m'.flatMap (distanceLines view) ++ '/' :: t → m.map (shown view) = m'.map (shown view) := by
  have hne : ∀ (e : Nat × DistVals W) (r : Text), distanceLines view e ++ r ≠ '/' :: t := by
    intro e r h
    obtain ⟨c, u, hc, hd⟩ := decimal_ne e.1
    rw [distanceLines, hc, List.cons_append, List.cons_append] at h
    injection h with h _
    rw [h] at hd
    exact absurd hd (by decide)
  intro m
  induction m with
  | nil =>
    intro m' h
    cases m' with
    | nil => rfl
    | cons e m' => rw [List.flatMap_cons, List.append_assoc] at h; exact absurd h.symm (hne e _)
  | cons e m ih =>
    intro m' h
    cases m' with
    | nil => rw [List.flatMap_cons, List.append_assoc] at h; exact absurd h (hne e _)
    | cons e' m' =>
      simp only [List.flatMap_cons, distanceLines, List.append_assoc, List.cons_append] at h
      obtain ⟨a0, h⟩ := split_unique decimal_blank decimal_blank h
      obtain ⟨a1, h⟩ := split_unique (fmtF_comma _ _) (fmtF_comma _ _) (List.append_cancel_left h)
      obtain ⟨a2, h⟩ := split_unique (fmtF_comma _ _) (fmtF_comma _ _) (List.append_cancel_left h)
      obtain ⟨a3, h⟩ := split_unique (fmtF_line _ _) (fmtF_line _ _) (List.append_cancel_left h)
      obtain ⟨a4, h⟩ := split_unique (fmtF_comma _ _) (fmtF_comma _ _) (List.append_cancel_left h)
      obtain ⟨a5, h⟩ := split_unique (fmtF_comma _ _) (fmtF_comma _ _) (List.append_cancel_left h)
      obtain ⟨a6, h⟩ := split_unique (fmtF_line _ _) (fmtF_line _ _) (List.append_cancel_left h)
      rw [List.map_cons, List.map_cons, ih m' (List.append_cancel_left h), shown, shown, decimal_inj a0, a1, a2, a3, a4, a5, a6]

/-- **C77**, C++. The distances printed by `printDistanceMap` can be read back, whatever they are, NaN and infinities included: two maps that print alike have the same labels, with values that are
equal as printed, with six decimal places. -/
theorem C77_cpp_distances (view : W → Dbl) (m m' : KMap (DistVals W)) (hm : ∀ e ∈ m, e.1 < 2 ^ 31) (hm' : ∀ e ∈ m', e.1 < 2 ^ 31) (w : World)
    (h : (cppDistanceMap view m w).out = (cppDistanceMap view m' w).out) : m.map (shown view) = m'.map (shown view) := by
  have e : "///////////////////////////////////////////////////////////////////////////////////////\n\n".toList =
    '/' :: "//////////////////////////////////////////////////////////////////////////////////////\n\n".toList := by decide +kernel
  simp only [cppDistanceMap, cppDistanceLoop_out view _ _ hm, cppDistanceLoop_out view _ _ hm', put, List.append_assoc] at h
  rw [e] at h
  exact distanceLines_unique view _ m m' (List.append_cancel_left (List.append_cancel_left h))

example : (cppDistanceMap (fun x : Nat => Dbl.fin false x) [(2, ⟨1, 2, 50, 3, 4, 25⟩)] ⟨[], [], 0⟩).out =
    ("\n//////////////////////////////////////// Distances ///////////////////////////////////////////////\n2 -> {\nmin_cr : 1.000000, max_cr : 2.000000, cr_confidence : 50.000000\n" ++
      "min_dr : 3.000000, max_dr : 4.000000, dr_confidence : 25.000000\n}\n\n///////////////////////////////////////////////////////////////////////////////////////\n\n").toList := by decide +kernel

end Verif.Props
