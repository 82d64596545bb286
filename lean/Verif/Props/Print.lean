import Verif.Lemmas.Print
import Verif.Props.Any
import Verif.Props.ClusterMap
/-
Properties C76 to C78: the printing functions.
-/
namespace Verif.Props
open Verif.Spec Verif.Print
variable {W T : Type}

/-! ### C77: the cluster map -/

theorem clusterMapLoop_prints {sys : Sys} (hc : ClockWorks sys) : ∀ (m : KMap (List Nat)) (b : Buf) (w : World), 50 ≤ b.length →
    (∀ e ∈ m, e.1 < 2 ^ 31 ∧ ∀ i ∈ e.2, i < 2 ^ 31) → Prints (clusterMapLoop sys m b w) w (m.flatMap mapLine)
  | [], b, w, _, _ => ⟨w, rfl, by simp, rfl⟩
  | (k, l) :: r, b, w, hb, hm => by
    obtain ⟨hk, hl⟩ := hm (k, l) (by simp)
    have u := fmtU_length k
    obtain ⟨b1, w1, e1, l1, o1, f1⟩ := say_ok hc (b := b) (t := fmtU k ++ " -> [".toList) (noNul_append.2 ⟨fmtU_noNul k, by simp [NoNul]⟩)
      (by simp; omega) w
    obtain ⟨b2, w2, e2, l2, o2, f2⟩ := sayAll_ok hc (l.map (fun i => fmtU i ++ " ".toList)) b1 w1 (fun t ht => by
      obtain ⟨i, _, rfl⟩ := List.mem_map.1 ht
      have := fmtU_length i
      exact ⟨noNul_append.2 ⟨fmtU_noNul i, by simp [NoNul]⟩, by simp; omega⟩)
    obtain ⟨w3, e3, o3, f3⟩ := logger_prints hc (msg := "]\n".toList) (by simp [NoNul]) w2
    obtain ⟨w4, e4, o4, f4⟩ := clusterMapLoop_prints hc r b2 w3 (by omega) (fun e he => hm e (by simp [he]))
    have hi : (l.map (fun i => fmtU i ++ " ".toList)).flatten = l.flatMap (fun i => decimal i ++ " ".toList) := by
      rw [List.flatMap_def]
      congr 1
      exact List.map_congr_left (fun i hi => by rw [fmtU_small (hl i hi)])
    refine ⟨w4, ?_, ?_, by rw [f4, f3, f2, f1]⟩
    · simp only [clusterMapLoop, e1, Outcome.ok_bind, e2, e3, e4]
    · rw [o4, o3, o2, o1, hi, fmtU_small hk]
      simp [mapLine]

/-- **C77**. `hdbscan_print_cluster_map` prints one line for each cluster: its label and the indices of its points, in the order of the table. -/
theorem C77_map {sys : Sys} (hc : ClockWorks sys) (m : KMap (List Nat)) (hm : ∀ e ∈ m, e.1 < 2 ^ 31 ∧ ∀ i ∈ e.2, i < 2 ^ 31) (w : World) :
    Prints (clusterMap sys m w) w (m.flatMap mapLine) := clusterMapLoop_prints hc m _ w (by simp [alloc]) hm

/-- **C77**. `hdbscan_print_cluster_sizes` prints one line for each cluster: its label and the number of its points. -/
theorem C77_sizes {sys : Sys} (hc : ClockWorks sys) (m : KMap (List Nat)) (hm : ∀ e ∈ m, e.1 < 2 ^ 31 ∧ e.2.length < 2 ^ 63) (w : World) :
    Prints (clusterSizes sys m w) w (m.flatMap sizeLine) := by
  obtain ⟨b, w', e, _, o, f⟩ := sayAll_ok hc (m.map (fun e => fmtU e.1 ++ " : ".toList ++ fmtL e.2.length ++ "\n".toList)) (alloc 50) w (fun t ht => by
    obtain ⟨x, hx, rfl⟩ := List.mem_map.1 ht
    have h1 := fmtU_length x.1
    have h2 := fmtL_length (hm x hx).2
    exact ⟨noNul_append.2 ⟨noNul_append.2 ⟨noNul_append.2 ⟨fmtU_noNul _, by simp [NoNul]⟩, fmtL_noNul _⟩, by simp [NoNul]⟩, by simp [alloc]; omega⟩)
  refine ⟨w', by simp only [clusterSizes, e, Outcome.ok_bind, Outcome.pure_eq], ?_, f⟩
  rw [o, List.flatMap_def]
  congr 2
  exact List.map_congr_left (fun x hx => by rw [fmtU_small (hm x hx).1, fmtL_eq]; rfl)

/-- **C77**. The printed map can be read back: two maps that print alike are equal. -/
theorem C77_readable {sys sys' : Sys} (hc : ClockWorks sys) (hc' : ClockWorks sys') (m m' : KMap (List Nat))
    (hm : ∀ e ∈ m, e.1 < 2 ^ 31 ∧ ∀ i ∈ e.2, i < 2 ^ 31) (hm' : ∀ e ∈ m', e.1 < 2 ^ 31 ∧ ∀ i ∈ e.2, i < 2 ^ 31) (w w' : World) (t : Text)
    (h : Prints (clusterMap sys m w) w t) (h' : Prints (clusterMap sys' m' w') w' t) : m = m' := by
  have key : ∀ {x : Outcome World} {w : World} {t t' : Text}, Prints x w t → Prints x w t' → t = t' := by
    intro x w t t' h h'
    obtain ⟨v, e, o, _⟩ := h
    obtain ⟨v', e', o', _⟩ := h'
    rw [e] at e'; cases e'
    rw [o] at o'; exact List.append_cancel_left o'
  refine map_unique ?_
  rw [← key h (C77_map hc m hm w), ← key h' (C77_map hc' m' hm' w')]

/-- **C77** for labels: the map created from labels and then printed shows all of them. If the maps of two label arrays print alike, the arrays are
    equal on the range the maps were created for. -/
theorem C77_labels {sys : Sys} (hc : ClockWorks sys) (labels labels' : List Nat) (b e : Nat) (he : e ≤ labels.length) (he' : e ≤ labels'.length)
    (h3 : b + 3 ≤ e) (hs : e ≤ 2 ^ 31) (hl : ∀ x ∈ labels, x < 2 ^ 31) (hl' : ∀ x ∈ labels', x < 2 ^ 31) (w : World) :
    ∃ m m' t t', CMap.create labels b e = .ok m ∧ CMap.create labels' b e = .ok m' ∧ Prints (clusterMap sys m w) w t ∧
      Prints (clusterMap sys m' w) w t' ∧ (t = t' → ∀ i, b ≤ i → i < e → labels[i]? = labels'[i]?) := by
  obtain ⟨m, e1, _, h1⟩ := C41_map_partial labels b e he (.inl h3)
  obtain ⟨m', e2, _, h2⟩ := C41_map_partial labels' b e he' (.inl h3)
  rw [show max b e = e by omega] at h1 h2
  have small : ∀ {L : List Nat} {m : KMap (List Nat)}, IsClusterMap L b e m → (∀ x ∈ L, x < 2 ^ 31) → ∀ x ∈ m, x.1 < 2 ^ 31 ∧ ∀ i ∈ x.2, i < 2 ^ 31 := by
    intro L m h hL x hx
    obtain ⟨hl, hne⟩ := (h.lists x.1 x.2).1 ((KMap.lookup_mem h.ascending).2 hx)
    have hmem : ∀ i ∈ x.2, i < e ∧ L[i]? = some x.1 := by
      intro i hi
      rw [hl, carriers, List.mem_filter, List.mem_range] at hi
      simp only [decide_eq_true_eq] at hi
      exact ⟨hi.1, hi.2.2⟩
    obtain ⟨i, hi⟩ := List.exists_mem_of_ne_nil _ hne
    exact ⟨hL _ (List.mem_of_getElem? (hmem i hi).2), fun i hi => lt_of_lt_of_le (hmem i hi).1 hs⟩
  refine ⟨m, m', _, _, e1, e2, C77_map hc m (small h1 hl) w, C77_map hc m' (small h2 hl') w, fun ht i hbi hie => ?_⟩
  have hmm := map_unique ht
  subst hmm
  obtain ⟨x, hx⟩ : ∃ x, labels[i]? = some x := ⟨_, List.getElem?_eq_getElem (by omega)⟩
  have hi : i ∈ carriers labels b e x := by
    rw [carriers, List.mem_filter, List.mem_range]; simp [hie, hbi, hx]
  have hl : m.lookup x = some (carriers labels b e x) := (h1.lists _ _).2 ⟨rfl, List.ne_nil_of_mem hi⟩
  have := ((h2.lists _ _).1 hl).1
  rw [this, carriers, List.mem_filter] at hi
  simp only [decide_eq_true_eq] at hi
  rw [hx, hi.2.2]

/-- A label of 2^31 or more would be printed as a negative number; a run has fewer labels than that. -/
theorem C77_large_label : clusterMap ⟨fun _ => [], fun _ => true⟩ [(2 ^ 31, [0])] ⟨[], [], 0⟩ = .ok ⟨"-2147483648 -> [0 ]\n".toList, [], 3⟩ := by decide +kernel

/-- A clock. -/
def exampleSys : Sys := ⟨fun _ => "[2024-02-29 23:59:59]".toList, fun _ => true⟩

theorem exampleSys_works : ClockWorks exampleSys := fun _ => by
  show "[2024-02-29 23:59:59]".toList.length < 100 ∧ '\x00' ∉ "[2024-02-29 23:59:59]".toList
  decide

example : ClockWorks exampleSys := exampleSys_works
example : (∀ e ∈ ([(0, [4, 12]), (2, [0, 1, 10]), (7, [3])] : KMap (List Nat)), e.1 < 2 ^ 31 ∧ ∀ i ∈ e.2, i < 2 ^ 31) := by decide
example : clusterMap exampleSys [(0, [4, 12]), (2, [0, 1, 10]), (7, [3])] ⟨[], [], 0⟩ =
    .ok ⟨"0 -> [4 12 ]\n2 -> [0 1 10 ]\n7 -> [3 ]\n".toList, [], 12⟩ := by decide +kernel
example : clusterSizes exampleSys [(0, [4, 12]), (2, [0, 1, 10]), (7, [3])] ⟨[], [], 0⟩ = .ok ⟨"0 : 2\n2 : 3\n7 : 1\n".toList, [], 3⟩ := by decide +kernel
example := C77_labels exampleSys_works [2, 0, 2, 3, 3, 0, 2] [2, 0, 2, 3, 3, 2, 2] 1 6 (by decide) (by decide) (by decide) (by decide) (by decide) (by decide) ⟨[], [], 0⟩

/-! ### C78: the hierarchy -/

theorem levels_ok (view : W → Dbl) (n : Nat) : ∀ (h : KMap (W × List Nat)) (w : World),
    (∀ e ∈ h, e.2.2.length = n ∧ ∀ x ∈ e.2.2, x < 2 ^ 31) → levels view n h w = .ok (put w (h.flatMap (levelLine view)))
  | [], w, _ => by simp [levels, put]
  | (k, x, ls) :: r, w, h => by
    obtain ⟨hlen, hsm⟩ := h (k, x, ls) (by simp)
    have hr : (List.range n).mapM (fun j => rd ls j) = .ok ls := by
      rw [mapM_rd (le_of_eq hlen.symm), ← hlen, List.take_length]
    rw [levels, hr, Outcome.ok_bind, levels_ok view n r _ (fun e he => h e (by simp [he]))]
    have hi : ls.flatMap (fun x => fmtU x ++ " ".toList) = ls.flatMap (fun x => decimal x ++ " ".toList) := by
      rw [List.flatMap_def, List.flatMap_def]
      congr 1
      exact List.map_congr_left (fun i hi => by rw [fmtU_small (hsm i hi)])
    simp only [put, hi, fmtL_eq, List.flatMap_cons, levelLine, List.append_assoc]

/-- **C78, the part that holds.** Without a file name, `hdbscan_print_hierarchies` prints the number of levels and then one line for each level, in
    ascending order: its number, its weight and the labels of all points (the three framing messages begin with the date). (Missing, and false:
    with a file name.) -/
theorem C78_hierarchy_partial {sys : Sys} (hc : ClockWorks sys) (view : W → Dbl) (h : KMap (W × List Nat)) (n : Nat) (hlen : h.length < 2 ^ 63)
    (hh : ∀ e ∈ h, e.2.2.length = n ∧ ∀ x ∈ e.2.2, x < 2 ^ 31) (w : World) :
    Prints (hierarchies sys view h n none w) w
      (sys.date w.asked ++ " INFO: ".toList ++ hierarchyTitle ++
        (sys.date (w.asked + 1) ++ " INFO: hierarchy size = ".toList ++ decimal h.length ++ "\n".toList) ++
        h.flatMap (levelLine view) ++ (sys.date (w.asked + 2) ++ " INFO: ".toList ++ rule)) := by
  have ht : NoNul hierarchyTitle := by unfold NoNul; decide +kernel
  have hr : NoNul rule := by unfold NoNul; decide +kernel
  have hl := fmtL_length hlen
  have hs : NoNul ("hierarchy size = ".toList ++ fmtL h.length ++ "\n".toList) :=
    noNul_append.2 ⟨noNul_append.2 ⟨by simp [NoNul], fmtL_noNul _⟩, by simp [NoNul]⟩
  obtain ⟨b, eb, _, cb⟩ := sprintf_zero (b := alloc 100) hs (by simp [alloc]; omega)
  simp only [Prints, hierarchies, chooseFile, Outcome.ok_bind, logger_ok hc .info ht, eb, cb, logger_ok hc .info hs, putLevels, levels_ok view n h _ hh,
    logger_ok hc .info hr]
  refine ⟨_, rfl, ?_, rfl⟩
  have e1 : stamp sys w.asked .info = sys.date w.asked ++ " INFO: ".toList := by simp [stamp, LogType.name]
  have e2 : stamp sys (w.asked + 1) .info = sys.date (w.asked + 1) ++ " INFO: ".toList := by simp [stamp, LogType.name]
  have e3 : stamp sys (w.asked + 1 + 1) .info = sys.date (w.asked + 2) ++ " INFO: ".toList := by simp [stamp, LogType.name]
  have e4 : " INFO: hierarchy size = ".toList = " INFO: ".toList ++ "hierarchy size = ".toList := by decide
  simp only [put, e1, e2, e3, e4, fmtL_eq, List.append_assoc]

theorem fmtF_blank (p : Nat) (x : Dbl) : ' ' ∉ fmtF p x := by
  have hs : ∀ b, ' ' ∉ sign b := by intro b; cases b <;> simp [sign]
  have hd : ∀ n, ' ' ∉ Nat.toDigits 10 n := fun n h => absurd (Nat.isDigit_of_mem_toDigits (by decide) (by decide) h) (by decide)
  cases x with
  | nan b => simp [fmtF, hs]
  | inf b => simp [fmtF, hs]
  | fin b q =>
    simp only [fmtF, digitsPad, List.mem_append, List.mem_cons, hs, hd, List.mem_replicate, not_or, not_false_eq_true, and_true, true_and]
    exact ⟨by decide, fun h => absurd h.2 (by decide)⟩

/-- **C78, the part that holds.** The printed levels can be read back: two hierarchies that print alike have the same levels with the same labels, and
    weights that are equal as printed, with 15 decimal places. -/
theorem C78_readable_partial (view : W → Dbl) : ∀ (h h' : KMap (W × List Nat)), h.flatMap (levelLine view) = h'.flatMap (levelLine view) →
    h.map (fun e => (e.1, fmtF 15 (view e.2.1), e.2.2)) = h'.map (fun e => (e.1, fmtF 15 (view e.2.1), e.2.2)) := by
  have hne : ∀ e (r : Text), levelLine view e ++ r ≠ [] := by
    intro e r
    obtain ⟨c, t, h, _⟩ := decimal_ne e.1
    simp [levelLine, h]
  intro h
  induction h with
  | nil =>
    intro h' he
    cases h' with
    | nil => rfl
    | cons e h' => simp only [List.flatMap_nil, List.flatMap_cons] at he; exact absurd he.symm (hne e _)
  | cons e h ih =>
    intro h' he
    cases h' with
    | nil => simp only [List.flatMap_nil, List.flatMap_cons] at he; exact absurd he (hne e _)
    | cons e' h' =>
      have h0 : " : ".toList = ' ' :: ": ".toList := by decide
      have h1 : " -> [".toList = ' ' :: "-> [".toList := by decide
      have h2 : "]\n".toList = ']' :: ['\n'] := by decide
      simp only [List.flatMap_cons, levelLine, h0, h1, h2, List.append_assoc, List.cons_append, List.nil_append] at he
      obtain ⟨e1, he⟩ := split_unique decimal_blank decimal_blank he
      obtain ⟨e2, he⟩ := split_unique (fmtF_blank _ _) (fmtF_blank _ _) (List.append_cancel_left he)
      obtain ⟨e3, he⟩ := items_unique (List.append_cancel_left he)
      simp only [List.cons.injEq, true_and] at he
      rw [List.map_cons, List.map_cons, ih h' he, decimal_inj e1, e2, e3]

/-- **C78 is violated** by every call with a file name: `strcat` reads the array it appends to, which has not been initialised. -/
theorem C78_file_violated (sys : Sys) (view : W → Dbl) (h : KMap (W × List Nat)) (n : Nat) (filename : Text) (w : World) :
    (hierarchies sys view h n (some filename) w).IsUB := ⟨_, rfl⟩

/-- Whole numbers as doubles. -/
def wholeView (x : Nat) : Dbl := .fin false x

example : (∀ e ∈ ([(0, 0, [0, 0, 0]), (1, 5, [1, 1, 1]), (2, 3, [2, 0, 2])] : KMap (Nat × List Nat)), e.2.2.length = 3 ∧ ∀ x ∈ e.2.2, x < 2 ^ 31) := by decide
example := C78_hierarchy_partial exampleSys_works wholeView [(0, 0, [0, 0, 0]), (1, 5, [1, 1, 1]), (2, 3, [2, 0, 2])] 3 (by decide) (by decide) ⟨[], [], 0⟩
example : levels wholeView 3 [(0, 0, [0, 0, 0]), (1, 5, [1, 1, 1]), (2, 3, [2, 0, 2])] ⟨[], [], 0⟩ =
    .ok ⟨"0 : 0.000000000000000 -> [0 0 0 ]\n1 : 5.000000000000000 -> [1 1 1 ]\n2 : 3.000000000000000 -> [2 0 2 ]\n".toList, [], 0⟩ := by decide +kernel

/-! ### C76: the character arrays -/

/-- **C76, the part that holds.** The logger itself is safe: a message of any length and any type is written with date and type in front of it. -/
theorem C76_logger_partial {sys : Sys} (hc : ClockWorks sys) (ty : LogType) (msg : Text) (hn : '\x00' ∉ msg) (w : World) :
    ∃ w', logger sys ty msg w = .ok w' ∧ w'.files = w.files ∧
      w'.out = w.out ++ ((if ty = .none then [] else sys.date w.asked ++ " ".toList ++ ty.name ++ ": ".toList) ++ msg) :=
  ⟨_, logger_ok hc ty hn w, rfl, rfl⟩

theorem clusterMapLoop_returns {sys : Sys} (hc : ClockWorks sys) : ∀ (m : KMap (List Nat)) (b : Buf) (w : World), 50 ≤ b.length → (clusterMapLoop sys m b w).Returns
  | [], b, w, _ => ⟨w, rfl⟩
  | (k, l) :: r, b, w, hb => by
    have u := fmtU_length k
    obtain ⟨b1, w1, e1, l1, _, _⟩ := say_ok hc (b := b) (t := fmtU k ++ " -> [".toList) (noNul_append.2 ⟨fmtU_noNul k, by simp [NoNul]⟩)
      (by simp; omega) w
    obtain ⟨b2, w2, e2, l2, _, _⟩ := sayAll_ok hc (l.map (fun i => fmtU i ++ " ".toList)) b1 w1 (fun t ht => by
      obtain ⟨i, _, rfl⟩ := List.mem_map.1 ht
      have := fmtU_length i
      exact ⟨noNul_append.2 ⟨fmtU_noNul i, by simp [NoNul]⟩, by simp; omega⟩)
    obtain ⟨w3, e3, _, _⟩ := logger_prints hc (msg := "]\n".toList) (by simp [NoNul]) w2
    obtain ⟨w4, e4⟩ := clusterMapLoop_returns hc r b2 w3 (by omega)
    exact ⟨w4, by simp only [clusterMapLoop, e1, Outcome.ok_bind, e2, e3, e4]⟩

/-- **C76, the part that holds.** The functions that format only whole numbers are safe for all their arguments: the cluster map, the sizes, and the
    message of `cluster_detach_points`. -/
theorem C76_integers_partial {sys : Sys} (hc : ClockWorks sys) (m : KMap (List Nat)) (hm : ∀ e ∈ m, e.2.length < 2 ^ 63) (label num : Nat) (w : World) :
    (clusterMap sys m w).Returns ∧ (clusterSizes sys m w).Returns ∧ (detachMessage sys label num w).Returns := by
  refine ⟨clusterMapLoop_returns hc m _ w (by simp [alloc]), ?_, ?_⟩
  · obtain ⟨b, w', e, _⟩ := sayAll_ok hc (m.map (fun e => fmtU e.1 ++ " : ".toList ++ fmtL e.2.length ++ "\n".toList)) (alloc 50) w (fun t ht => by
      obtain ⟨x, hx, rfl⟩ := List.mem_map.1 ht
      have h1 := fmtU_length x.1
      have h2 := fmtL_length (hm x hx)
      exact ⟨noNul_append.2 ⟨noNul_append.2 ⟨noNul_append.2 ⟨fmtU_noNul _, by simp [NoNul]⟩, fmtL_noNul _⟩, by simp [NoNul]⟩, by simp [alloc]; omega⟩)
    exact ⟨w', by simp only [clusterSizes, e, Outcome.ok_bind, Outcome.pure_eq]⟩
  · have h1 := fmtU_length label
    have h2 := fmtU_length num
    have hn : NoNul ("cluster_detach_points - Cluster ".toList ++ fmtU label ++ " has ".toList ++ fmtU num ++ " points.\n".toList) := by
      simp only [noNul_append]
      exact ⟨⟨⟨⟨by simp [NoNul], fmtU_noNul _⟩, by simp [NoNul]⟩, fmtU_noNul _⟩, by simp [NoNul]⟩
    obtain ⟨b, e, _, c⟩ := sprintf_zero (b := alloc 100) hn (by simp [alloc]; omega)
    simp only [detachMessage, e, Outcome.ok_bind, c, logger_ok hc .fatal hn]
    exact ⟨_, rfl⟩

theorem distanceTexts_ok (view : W → Dbl) (zero : W) (dis : Distance W) (d : Nat → Nat → W) (i : Nat) : ∀ (l : List Nat),
    (∀ j ∈ l, dis.get zero i j = .ok (d i j)) → distanceTexts view zero dis i l = .ok (l.map (fun j => fmtF 6 (view (d i j)) ++ " ".toList))
  | [], _ => rfl
  | j :: r, h => by
    simp only [distanceTexts, h j (by simp), Outcome.ok_bind, distanceTexts_ok view zero dis d i r (fun j hj => h j (by simp [hj])), Outcome.pure_eq, List.map_cons]

theorem distanceRows_cases {sys : Sys} (hc : ClockWorks sys) (view : W → Dbl) (zero : W) (dis : Distance W) (d : Nat → Nat → W)
    (hget : ∀ i j, i < j → j < dis.rows → dis.get zero i j = .ok (d i j)) : ∀ (count i : Nat) (b : Buf) (w : World), b.length = 20 → i + count = dis.rows →
    ((∀ a j, i ≤ a → a < j → j < dis.rows → (fmtF 6 (view (d a j))).length ≤ 18) → (distanceRows sys view zero dis count i b w).Returns) ∧
    ((∃ a j, i ≤ a ∧ a < j ∧ j < dis.rows ∧ 18 < (fmtF 6 (view (d a j))).length) → (distanceRows sys view zero dis count i b w).IsUB)
  | 0, i, b, w, _, hi => ⟨fun _ => ⟨w, rfl⟩, fun ⟨a, j, h1, h2, h3, _⟩ => by omega⟩
  | count + 1, i, b, w, hb, hi => by
    obtain ⟨w1, e1, _, _⟩ := logger_prints hc (msg := "[".toList) (by simp [NoNul]) w
    have e2 := distanceTexts_ok view zero dis d i ((List.range dis.rows).filter (fun j => i < j)) (fun j hj => by
      simp only [List.mem_filter, List.mem_range, decide_eq_true_eq] at hj
      exact hget i j hj.2 hj.1)
    have hn : ∀ t ∈ ((List.range dis.rows).filter (fun j => i < j)).map (fun j => fmtF 6 (view (d i j)) ++ " ".toList), NoNul t := by
      intro t ht
      obtain ⟨j, _, rfl⟩ := List.mem_map.1 ht
      exact noNul_append.2 ⟨fmtF_noNul _ _, by simp [NoNul]⟩
    simp only [distanceRows, e1, Outcome.ok_bind, e2]
    by_cases hrow : ∀ j, i < j → j < dis.rows → (fmtF 6 (view (d i j))).length ≤ 18
    · obtain ⟨b', w2, e3, l3, _, _⟩ := sayAll_ok hc _ b w1 (fun t ht => ⟨hn t ht, by
        obtain ⟨j, hj, rfl⟩ := List.mem_map.1 ht
        simp only [List.mem_filter, List.mem_range, decide_eq_true_eq] at hj
        have := hrow j hj.2 hj.1
        simp; omega⟩)
      obtain ⟨w3, e4, _, _⟩ := logger_prints hc (msg := "]\n".toList) (by simp [NoNul]) w2
      obtain ⟨r1, r2⟩ := distanceRows_cases hc view zero dis d hget count (i + 1) b' w3 (by omega) (by omega)
      simp only [e3, Outcome.ok_bind, e4]
      refine ⟨fun h => r1 (fun a j ha => h a j (by omega)), fun ⟨a, j, h1, h2, h3, h4⟩ => r2 ⟨a, j, ?_, h2, h3, h4⟩⟩
      rcases Nat.lt_or_ge i a with h | h
      · omega
      · have : a = i := by omega
        subst this
        have := hrow j h2 h3
        omega
    · refine ⟨fun h => absurd (fun j h1 h2 => h i j (le_refl _) h1 h2) hrow, fun _ => isUB_bind (sayAll_over hc _ b w1 hn ?_)⟩
      simp only [not_forall] at hrow
      obtain ⟨j, h1, h2, h3⟩ := hrow
      refine ⟨_, List.mem_map.2 ⟨j, ?_, rfl⟩, by simp; omega⟩
      simp [h1, h2]

/-- **C76, the part that holds**, and its limit. `distances_print` is safe exactly if every distance is printed with at most 11 digits before the decimal
    point (less than 99999999999.9999995, infinite or NaN). Otherwise it writes past the end of an array of 20 characters. -/
theorem C76_distances_partial {sys : Sys} (hc : ClockWorks sys) (view : W → Dbl) (zero : W) (dis : Distance W) (d : Nat → Nat → W)
    (hget : ∀ i j, i < j → j < dis.rows → dis.get zero i j = .ok (d i j)) (hpos : ∀ i j, i < j → j < dis.rows → Dbl.Plain (view (d i j))) (w : World) :
    ((distances sys view zero dis w).Returns ↔ ∀ i j, i < j → j < dis.rows → AtMost 6 11 (view (d i j))) ∧
    (¬ (distances sys view zero dis w).Returns → (distances sys view zero dis w).IsUB) := by
  obtain ⟨h1, h2⟩ := distanceRows_cases hc view zero dis d hget dis.rows 0 (alloc 20) w (by simp [alloc]) (by omega)
  have key : ∀ i j, i < j → j < dis.rows → ((fmtF 6 (view (d i j))).length ≤ 18 ↔ AtMost 6 11 (view (d i j))) :=
    fun i j hi hj => fmtF_plain (p := 6) (k := 11) (by decide) (by decide) (by decide) (hpos i j hi hj)
  refine iff_of_cases (fun h => h1 (fun a j _ ha hj => (key a j ha hj).2 (h a j ha hj))) (fun h => h2 ?_)
  simp only [not_forall] at h
  obtain ⟨i, j, hi, hj, h⟩ := h
  exact ⟨i, j, Nat.zero_le _, hi, hj, by rw [← key i j hi hj] at h; omega⟩

/-- The number of characters between the fixed parts of a line of the list of scores. -/
theorem outlierLine_length (view : W → Dbl) (viewT : T → Dbl) (s : OScore W T) : (outlierLine view viewT s).length =
    (decimal s.id).length + (width 6 (fmtF 6 (view s.core))).length + (width 6 (fmtF 6 (viewT s.score))).length + 8 := by
  simp [outlierLine, fmtL_eq]; omega

theorem width_noNul {k : Nat} {t : Text} (h : NoNul t) : NoNul (width k t) := by
  refine noNul_append.2 ⟨fun hm => absurd (List.eq_of_mem_replicate hm) (by decide), h⟩

theorem width_length (k : Nat) (t : Text) : (width k t).length = max k t.length := by simp [width]; omega

theorem outlierLine_noNul (view : W → Dbl) (viewT : T → Dbl) (s : OScore W T) : NoNul (outlierLine view viewT s) := by
  simp only [outlierLine, noNul_append]
  exact ⟨⟨⟨⟨⟨fmtL_noNul _, by simp [NoNul]⟩, width_noNul (fmtF_noNul _ _)⟩, by simp [NoNul]⟩, width_noNul (fmtF_noNul _ _)⟩, by simp [NoNul]⟩

/-- **C76, the part that holds**, and its limit. `hdbscan_print_outlier_scores` is safe exactly if in no line the id and the two numbers, with six decimal places and
    at least six characters wide, together have more than 91 characters; for instance if all numbers are below 10^32. Otherwise it writes past the end of an
    array of 100 characters. -/
theorem C76_outlier_scores_partial {sys : Sys} (hc : ClockWorks sys) (view : W → Dbl) (viewT : T → Dbl) (scores : List (OScore W T)) (n : Nat)
    (hn : n ≤ scores.length) (w : World) :
    ((outlierScores sys view viewT scores n w).Returns ↔ ∀ s ∈ scores.take n,
        (decimal s.id).length + max 6 (fmtF 6 (view s.core)).length + max 6 (fmtF 6 (viewT s.score)).length ≤ 91) ∧
    (¬ (outlierScores sys view viewT scores n w).Returns → (outlierScores sys view viewT scores n w).IsUB) ∧
    ((∀ s ∈ scores.take n, s.id < 2 ^ 32 ∧ AtMost 6 32 (view s.core) ∧ AtMost 6 32 (viewT s.score)) → (outlierScores sys view viewT scores n w).Returns) := by
  have ht : NoNul outlierTitle := by unfold NoNul; decide +kernel
  have hr : NoNul rule := by unfold NoNul; decide +kernel
  obtain ⟨w1, e1, _, _⟩ := logger_prints hc ht w
  have e2 := mapM_rd hn
  have hnn : ∀ t ∈ (scores.take n).map (outlierLine view viewT), NoNul t := by
    intro t ht
    obtain ⟨s, _, rfl⟩ := List.mem_map.1 ht
    exact outlierLine_noNul view viewT s
  have key : ∀ s : OScore W T, (outlierLine view viewT s).length + 1 ≤ 100 ↔
      (decimal s.id).length + max 6 (fmtF 6 (view s.core)).length + max 6 (fmtF 6 (viewT s.score)).length ≤ 91 := by
    intro s; rw [outlierLine_length, width_length, width_length]; omega
  have h := iff_of_cases (x := outlierScores sys view viewT scores n w) (P := ∀ s ∈ scores.take n,
        (decimal s.id).length + max 6 (fmtF 6 (view s.core)).length + max 6 (fmtF 6 (viewT s.score)).length ≤ 91)
    (fun h => by
      obtain ⟨b', w2, e3, _, _, _⟩ := sayAll_ok hc ((scores.take n).map (outlierLine view viewT)) (alloc 100) w1 (fun t ht => ⟨hnn t ht, by
        obtain ⟨s, hs, rfl⟩ := List.mem_map.1 ht
        have := (key s).2 (h s hs)
        simpa [alloc] using this⟩)
      obtain ⟨w3, e4, _, _⟩ := logger_prints hc hr w2
      exact ⟨w3, by simp only [outlierScores, e1, Outcome.ok_bind, e2, e3, e4]⟩)
    (fun h => by
      simp only [outlierScores, e1, Outcome.ok_bind, e2]
      refine isUB_bind (sayAll_over hc _ _ _ hnn ?_)
      simp only [not_forall] at h
      obtain ⟨s, hs, h⟩ := h
      refine ⟨_, List.mem_map.2 ⟨s, hs, rfl⟩, ?_⟩
      rw [← key s] at h
      simp [alloc]; omega)
  refine ⟨h.1, h.2, fun ha => h.1.2 (fun s hs => ?_)⟩
  obtain ⟨a1, a2, a3⟩ := ha s hs
  have b1 := fmtL_index a1
  rw [fmtL_eq] at b1
  have b2 := fmtF_length (p := 6) (k := 32) (by decide) (by decide) (by decide) a2
  have b3 := fmtF_length (p := 6) (k := 32) (by decide) (by decide) (by decide) a3
  omega

theorem dblMax_bounds : (10 : Rat) ^ 308 ≤ (2 ^ 53 - 1) * 2 ^ 971 ∧ ((2 ^ 53 - 1) * 2 ^ 971 + 1 : Rat) ≤ 10 ^ 309 := by
  have h : 10 ^ 308 ≤ (2 ^ 53 - 1) * 2 ^ 971 ∧ (2 ^ 53 - 1) * 2 ^ 971 + 1 ≤ 10 ^ 309 := by decide +kernel
  have h1 : ((10 ^ 308 : Nat) : Rat) ≤ ((2 ^ 53 - 1) * 2 ^ 971 : Nat) := Nat.cast_le.2 h.1
  have h2 : (((2 ^ 53 - 1) * 2 ^ 971 + 1 : Nat) : Rat) ≤ (10 ^ 309 : Nat) := Nat.cast_le.2 h.2
  rw [Nat.cast_pow] at h1 h2
  rw [Nat.cast_mul, Nat.cast_pow, Nat.cast_sub (by decide)] at h1
  rw [Nat.cast_add, Nat.cast_mul, Nat.cast_pow, Nat.cast_sub (by decide)] at h2
  push_cast at h1 h2
  exact ⟨h1, h2⟩

theorem dblMax_long : 316 ≤ (fmtF 6 dblMax).length := by
  by_contra h
  have := (fmtF_plain (p := 6) (k := 308) (x := dblMax) (by decide) (by decide) (by decide) ⟨rfl, by norm_num [dblMax]⟩).1 (by omega)
  simp only [dblMax, AtMost] at this
  have h1 := dblMax_bounds.1
  have h2 := this.2
  have h3 : (0 : Rat) < 1 / 2 / 10 ^ 6 := by norm_num
  exact absurd (lt_of_le_of_lt h1 h2) (not_lt.2 (sub_le_self _ h3.le))

/-- **C76 is violated** by runs: if some row has fewer than `m` distances below `D_MAX` (a NaN coordinate does that, and so does an `m` larger than the number of
    rows), its core distance is `D_MAX`, and printing the outlier scores of the run writes past the end of the array. -/
theorem C76_run_violated {D S V : Type} [LinearOrder V] [CCmp S] [LinearOrder T] (env : Api.Env D (Ieee V) S T) (hd : ∃ v, env.ar.dmax = .num v) (hq : SortsAscending env.qsort)
    (data : List D) (rows cols : Nat) (f : Nat → Nat → Ieee V) (h : Readable env data rows cols f) (h5 : 5 ≤ rows) (m : Nat) (hm : 2 ≤ m)
    (i : Nat) (hi : i < rows) (hfew : ¬ AtLeast m (fun j => j < rows ∧ CCmp.lt (distOf env.dops f i j) env.ar.dmax = true))
    (view : Ieee V → Dbl) (hview : view env.ar.dmax = dblMax) (viewT : T → Dbl) {sys : Sys} (hc : ClockWorks sys) (par : Api.Par) (hp : Complete rows rows par) :
    ∃ obj : Api.Obj (Ieee V) S T, Api.fresh env par m data rows cols true = .ok obj ∧
      ∀ w, (outlierScores sys view viewT obj.results.outliers obj.numPoints w).IsUB := by
  obtain ⟨obj, core, key⟩ := C71_any_data env hd hq data rows cols f h h5
  obtain ⟨k1, _, k2, _, k3, k4, _⟩ := key m hm
  refine ⟨obj m, k1 par hp, fun w => ?_⟩
  have hlen : (obj m).results.outliers.length = rows := by
    have := k4.everyone.length_eq; simpa using this
  obtain ⟨p1, p2, _⟩ := C76_outlier_scores_partial hc view viewT (obj m).results.outliers (obj m).numPoints (by rw [k2, hlen]) w
  refine p2 (fun hr => ?_)
  have hall := p1.1 hr
  rw [k2, ← hlen, List.take_length] at hall
  obtain ⟨o, ho, hoi⟩ := List.mem_map.1 (k4.everyone.mem_iff.2 (List.mem_range.2 hi))
  have hdm : core m i = env.ar.dmax := by
    obtain ⟨_, hle, hlt⟩ := k3 i hi
    obtain ⟨v, hv⟩ := hd
    rw [hv] at hle hlt ⊢
    have hn : ¬ CCmp.lt (core m i) (Ieee.num v) = true := fun hx => hfew (by rw [hv]; exact hlt.1 hx)
    cases hcm : core m i with
    | nan => rw [hcm] at hle; exact absurd hle (by simp [CCmp.le])
    | num u =>
      rw [hcm] at hle hn
      simp only [CCmp.le, CCmp.lt, decide_eq_true_eq] at hle hn
      rw [le_antisymm hle (not_lt.1 hn)]
  have hcore := k4.cores o ho
  rw [hoi, hdm] at hcore
  have := hall o ho
  rw [hcore, hview] at this
  have := dblMax_long
  omega

/-- The record of a cluster as `hdbscan_print_distance_map` shows it. -/
def recordTexts (view : W → Dbl) (v : DistVals W) : List Text :=
  [ "\tmin_cr : ".toList ++ fmtF 6 (view v.minCr) ++ ", max_cr : ".toList ++ fmtF 6 (view v.maxCr) ++ ", cr_confidence : ".toList ++ fmtF 6 (view v.crConf) ++ "\n".toList
  , "\tmin_dr : ".toList ++ fmtF 6 (view v.minDr) ++ ", max_dr : ".toList ++ fmtF 6 (view v.maxDr) ++ ", dr_confidence : ".toList ++ fmtF 6 (view v.drConf) ++ "\n".toList
  , "}\n\n".toList ]

theorem distanceRecord_eq (view : W → Dbl) (key : Nat) (v : DistVals W) (b : Buf) :
    distanceRecord view key v b = (sprintf b 0 (fmtU key ++ " -> {\n".toList) >>= appendAll (recordTexts view v)) := by
  simp only [distanceRecord, recordTexts, appendAll]
  have : ∀ (x : Outcome Buf), (x >>= fun b => Outcome.ok b) = x := by intro x; cases x <;> rfl
  simp only [this]

/-- The number of characters of the six numbers of a record. -/
def recordChars (view : W → Dbl) (v : DistVals W) : Nat :=
  (fmtF 6 (view v.minCr)).length + (fmtF 6 (view v.maxCr)).length + (fmtF 6 (view v.crConf)).length +
  (fmtF 6 (view v.minDr)).length + (fmtF 6 (view v.maxDr)).length + (fmtF 6 (view v.drConf)).length

theorem record_length (view : W → Dbl) (key : Nat) (v : DistVals W) :
    (fmtU key ++ " -> {\n".toList).length + (recordTexts view v).flatten.length = (fmtU key).length + recordChars view v + 89 := by
  simp [recordTexts, recordChars]; omega

theorem record_noNul (view : W → Dbl) (v : DistVals W) : ∀ t ∈ recordTexts view v, NoNul t := by
  intro t ht
  simp only [recordTexts, List.mem_cons, List.not_mem_nil, or_false] at ht
  rcases ht with rfl | rfl | rfl
  · simp only [noNul_append]
    exact ⟨⟨⟨⟨⟨⟨by simp [NoNul], fmtF_noNul _ _⟩, by simp [NoNul]⟩, fmtF_noNul _ _⟩, by simp [NoNul]⟩, fmtF_noNul _ _⟩, by simp [NoNul]⟩
  · simp only [noNul_append]
    exact ⟨⟨⟨⟨⟨⟨by simp [NoNul], fmtF_noNul _ _⟩, by simp [NoNul]⟩, fmtF_noNul _ _⟩, by simp [NoNul]⟩, fmtF_noNul _ _⟩, by simp [NoNul]⟩
  · simp [NoNul]

theorem distanceLoop_cases {sys : Sys} (hc : ClockWorks sys) (view : W → Dbl) : ∀ (m : KMap (DistVals W)) (b : Buf) (w : World), b.length = 512 →
    ((∀ e ∈ m, (fmtU e.1).length + recordChars view e.2 ≤ 422) → (distanceLoop sys view m b w).Returns) ∧
    ((∃ e ∈ m, 422 < (fmtU e.1).length + recordChars view e.2) → (distanceLoop sys view m b w).IsUB)
  | [], b, w, _ => ⟨fun _ => ⟨w, rfl⟩, fun ⟨e, he, _⟩ => by simp at he⟩
  | (k, v) :: r, b, w, hb => by
    have hp := pieces (b := b) (t := fmtU k ++ " -> {\n".toList) (ts := recordTexts view v) (noNul_append.2 ⟨fmtU_noNul k, by simp [NoNul]⟩) (record_noNul view v)
    rw [record_length, ← distanceRecord_eq, hb] at hp
    rw [distanceLoop]
    by_cases h : (fmtU k).length + recordChars view v ≤ 422
    · obtain ⟨b', e1, c1⟩ := hp.1 (by omega)
      obtain ⟨w', e2, _, _⟩ := logBuf_prints hc c1 w
      have hl : b'.length = 512 := by
        rw [distanceRecord_eq] at e1
        obtain ⟨b1, e0, e1⟩ := Outcome.bind_eq_ok.1 e1
        rw [appendAll_length e1]
        rw [sprintf] at e0
        split at e0
        · simp only [Outcome.ok.injEq] at e0; rw [← e0]; simp; omega
        · cases e0
      obtain ⟨r1, r2⟩ := distanceLoop_cases hc view r b' w' hl
      simp only [e1, Outcome.ok_bind, e2]
      refine ⟨fun ha => r1 (fun e he => ha e (by simp [he])), fun ⟨e, he, hx⟩ => r2 ?_⟩
      rcases List.mem_cons.1 he with rfl | he
      · simp only at hx; omega
      · exact ⟨e, he, hx⟩
    · exact ⟨fun ha => absurd (ha (k, v) (by simp)) h, fun _ => isUB_bind (hp.2 (by omega))⟩

/-- **C76, the part that holds**, and its limit. `hdbscan_print_distance_map` is safe exactly if for no cluster the label and the six numbers together have more than
    422 characters: if all numbers are below 10^60, for instance, or if the cluster has no distances (so that its minimum is `D_MAX`) and the others are below 10^11.
    If minimum and maximum of the core distances of a cluster are `D_MAX`, it writes past the end of an array of 512 characters. -/
theorem C76_distance_map_partial {sys : Sys} (hc : ClockWorks sys) (view : W → Dbl) (m : KMap (DistVals W)) (w : World) :
    ((distanceMap sys view m w).Returns ↔ ∀ e ∈ m, (fmtU e.1).length + recordChars view e.2 ≤ 422) ∧
    (¬ (distanceMap sys view m w).Returns → (distanceMap sys view m w).IsUB) ∧
    ((∀ e ∈ m, AtMost 6 11 (view e.2.minCr) ∧ AtMost 6 11 (view e.2.maxCr) ∧ AtMost 6 11 (view e.2.crConf) ∧ AtMost 6 11 (view e.2.maxDr) ∧ AtMost 6 11 (view e.2.drConf) ∧
        (AtMost 6 11 (view e.2.minDr) ∨ view e.2.minDr = dblMax)) → (distanceMap sys view m w).Returns) ∧
    ((∀ e ∈ m, AtMost 6 60 (view e.2.minCr) ∧ AtMost 6 60 (view e.2.maxCr) ∧ AtMost 6 60 (view e.2.crConf) ∧ AtMost 6 60 (view e.2.minDr) ∧ AtMost 6 60 (view e.2.maxDr) ∧
        AtMost 6 60 (view e.2.drConf)) → (distanceMap sys view m w).Returns) ∧
    ((∃ e ∈ m, view e.2.minCr = dblMax ∧ view e.2.maxCr = dblMax) → (distanceMap sys view m w).IsUB) := by
  have ht : NoNul distanceTitle := by unfold NoNul; decide +kernel
  have hr : NoNul distanceRule := by unfold NoNul; decide +kernel
  obtain ⟨w1, e1, _, _⟩ := logger_prints hc ht w
  obtain ⟨c1, c2⟩ := distanceLoop_cases hc view m (alloc 512) w1 (List.length_replicate)
  have h := iff_of_cases (x := distanceMap sys view m w) (P := ∀ e ∈ m, (fmtU e.1).length + recordChars view e.2 ≤ 422)
    (fun h => by
      obtain ⟨w2, e2⟩ := c1 h
      obtain ⟨w3, e3, _, _⟩ := logger_prints hc hr w2
      exact ⟨w3, by simp only [distanceMap, e1, Outcome.ok_bind, e2, e3]⟩)
    (fun h => by
      simp only [distanceMap, e1, Outcome.ok_bind]
      refine isUB_bind (c2 ?_)
      simp only [not_forall] at h
      obtain ⟨e, he, h⟩ := h
      exact ⟨e, he, by omega⟩)
  have hmaxlen : (fmtF 6 dblMax).length ≤ 316 :=
    (fmtF_plain (p := 6) (k := 309) (x := dblMax) (by decide) (by decide) (by decide) ⟨rfl, by norm_num [dblMax]⟩).2 ⟨by norm_num [dblMax], by
      have h3 : (1 / 2 / 10 ^ 6 : Rat) < 1 := by norm_num
      exact lt_of_lt_of_le (lt_sub_iff_add_lt.2 (add_lt_add_right h3 _)) (sub_le_sub_right dblMax_bounds.2 _)⟩
  refine ⟨h.1, h.2, fun ha => h.1.2 (fun e he => ?_), fun ha => h.1.2 (fun e he => ?_), fun ⟨e, he, h1, h2⟩ => h.2 (fun hret => ?_)⟩
  · obtain ⟨a1, a2, a3, a4, a5, a6⟩ := ha e he
    have l : ∀ {x : Dbl}, AtMost 6 11 x → (fmtF 6 x).length ≤ 19 := fun hx => fmtF_length (p := 6) (k := 11) (by decide) (by decide) (by decide) hx
    have b6 : (fmtF 6 (view e.2.minDr)).length ≤ 316 := by
      rcases a6 with a6 | a6
      · have := l a6; omega
      · rw [a6]; exact hmaxlen
    have := fmtU_length e.1
    have := l a1; have := l a2; have := l a3; have := l a4; have := l a5
    simp only [recordChars]; omega
  · obtain ⟨a1, a2, a3, a4, a5, a6⟩ := ha e he
    have l : ∀ {x : Dbl}, AtMost 6 60 x → (fmtF 6 x).length ≤ 68 := fun hx => fmtF_length (p := 6) (k := 60) (by decide) (by decide) (by decide) hx
    have := fmtU_length e.1
    have := l a1; have := l a2; have := l a3; have := l a4; have := l a5; have := l a6
    simp only [recordChars]; omega
  · have := h.1.1 hret e he
    have hx := dblMax_long
    simp only [recordChars, h1, h2] at this
    omega

/-- The number of characters of the six numbers of one kind of distances in the statistics. -/
def statChars (view : W → Dbl) (v : Stat.Vals W) : Nat :=
  (fmtF 5 (view v.max)).length + (fmtF 5 (view v.mean)).length + (fmtF 5 (view v.skewness)).length +
  (fmtF 5 (view v.kurtosis)).length + (fmtF 5 (view v.variance)).length + (fmtF 5 (view v.standardDev)).length

/-- **C76, the part that holds**, and its limit. `hdbscan_print_stats` is safe exactly if the count and the twelve numbers together have at most 539 characters; for
    instance if all numbers are below 10^37. Otherwise it writes past the end of an array of 1200 characters. -/
theorem C76_stats_partial {sys : Sys} (hc : ClockWorks sys) (view : W → Dbl) (s : Stat.Stats W) (w : World) :
    ((stats sys view s w).Returns ↔ (fmtU s.count).length + statChars view s.core + statChars view s.intra ≤ 539) ∧
    (¬ (stats sys view s w).Returns → (stats sys view s w).IsUB) ∧
    ((∀ v, v = s.core ∨ v = s.intra → AtMost 5 37 (view v.max) ∧ AtMost 5 37 (view v.mean) ∧ AtMost 5 37 (view v.skewness) ∧ AtMost 5 37 (view v.kurtosis) ∧
        AtMost 5 37 (view v.variance) ∧ AtMost 5 37 (view v.standardDev)) → (stats sys view s w).Returns) := by
  have ht : NoNul statTitle := by unfold NoNul; decide +kernel
  have hr : NoNul rule := by unfold NoNul; decide +kernel
  have hline : ∀ (k c e : Text) (x : Dbl), NoNul k → NoNul c → NoNul e → NoNul (k ++ c ++ fmtF 5 x ++ e) :=
    fun k c e x h1 h2 h3 => noNul_append.2 ⟨noNul_append.2 ⟨noNul_append.2 ⟨h1, h2⟩, fmtF_noNul _ _⟩, h3⟩
  have hlines : ∀ (k e : Text) (v : Stat.Vals W), NoNul k → NoNul e → ∀ t ∈ statLines view k e v, NoNul t := by
    intro k e v hk he t ht
    simp only [statLines, List.mem_cons, List.not_mem_nil, or_false] at ht
    rcases ht with rfl | rfl | rfl | rfl | rfl | rfl <;> exact hline _ _ _ _ hk (by simp [NoNul]) (by first | exact he | simp [NoNul])
  have hn : ∀ t ∈ [ "Cluster Count \t\t\t\t\t: ".toList ++ fmtU s.count ++ "\n".toList ] ++ statLines view "Core".toList "\n\n".toList s.core ++
      statLines view "Intra".toList "\n".toList s.intra ++ [rule], NoNul t := by
    intro t ht
    simp only [List.mem_append, List.mem_singleton] at ht
    rcases ht with ((ht | ht) | ht) | ht
    · rw [ht]
      exact noNul_append.2 ⟨noNul_append.2 ⟨by simp [NoNul], fmtU_noNul _⟩, by simp [NoNul]⟩
    · exact hlines _ _ _ (by simp [NoNul]) (by simp [NoNul]) t ht
    · exact hlines _ _ _ (by simp [NoNul]) (by simp [NoNul]) t ht
    · rw [ht]; exact hr
  have l1 : statTitle.length = 131 := by decide +kernel
  have l2 : rule.length = 136 := by decide +kernel
  have hlen : statTitle.length + ([ "Cluster Count \t\t\t\t\t: ".toList ++ fmtU s.count ++ "\n".toList ] ++ statLines view "Core".toList "\n\n".toList s.core ++
      statLines view "Intra".toList "\n".toList s.intra ++ [rule]).flatten.length = (fmtU s.count).length + statChars view s.core + statChars view s.intra + 660 := by
    have six : ∀ (k e : Text) (v : Stat.Vals W), (statLines view k e v).flatten.length = 6 * k.length + e.length + statChars view v + 157 := by
      intro k e v
      simp only [statLines, statChars, List.flatten_cons, List.flatten_nil, List.length_append, List.length_nil]
      rw [show " Distances - Max \t\t\t: ".toList.length = 22 from by decide +kernel, show " Distances - Mean \t\t\t: ".toList.length = 23 from by decide +kernel,
        show " Distances - Skewness \t\t: ".toList.length = 26 from by decide +kernel, show " Distances - Kurtosis \t\t: ".toList.length = 26 from by decide +kernel,
        show " Distances - Variance \t\t: ".toList.length = 26 from by decide +kernel, show " Distances - Standard Dev \t: ".toList.length = 29 from by decide +kernel,
        show "\n".toList.length = 1 from by decide +kernel]
      omega
    rw [List.flatten_append, List.flatten_append, List.flatten_append, List.length_append, List.length_append, List.length_append, six, six, List.flatten_singleton,
      List.flatten_singleton, l1, l2, List.length_append, List.length_append, show "Cluster Count \t\t\t\t\t: ".toList.length = 21 from by decide +kernel,
      show "Core".toList.length = 4 from by decide +kernel, show "\n\n".toList.length = 2 from by decide +kernel,
      show "\n".toList.length = 1 from by decide +kernel, show "Intra".toList.length = 5 from by decide +kernel]
    omega
  have hp := pieces (b := alloc 1200) ht hn
  rw [hlen, show (alloc 1200).length = 1200 from List.length_replicate] at hp
  have h := iff_of_cases (x := stats sys view s w) (P := (fmtU s.count).length + statChars view s.core + statChars view s.intra ≤ 539)
    (fun h => by
      obtain ⟨b, e, c⟩ := hp.1 (by omega)
      obtain ⟨w', e', _, _⟩ := logBuf_prints hc c w
      obtain ⟨b1, e1, e2⟩ := Outcome.bind_eq_ok.1 e
      exact ⟨w', by rw [stats, e1, Outcome.ok_bind, e2, Outcome.ok_bind, e']⟩)
    (fun h => by
      have := isUB_bind (f := fun b => logBuf sys b w) (hp.2 (by omega))
      rw [Outcome.bind_assoc] at this
      exact this)
  refine ⟨h.1, h.2, fun ha => h.1.2 ?_⟩
  have l : ∀ {x : Dbl}, AtMost 5 37 x → (fmtF 5 x).length ≤ 44 := fun hx => fmtF_length (p := 5) (k := 37) (by decide) (by decide) (by decide) hx
  have six : ∀ v, v = s.core ∨ v = s.intra → statChars view v ≤ 264 := by
    intro v hv
    obtain ⟨a1, a2, a3, a4, a5, a6⟩ := ha v hv
    have := l a1; have := l a2; have := l a3; have := l a4; have := l a5; have := l a6
    simp only [statChars]; omega
  have := six _ (.inl rfl); have := six _ (.inr rfl); have := fmtU_length s.count
  omega

theorem graphRows_returns {sys : Sys} (hc : ClockWorks sys) : ∀ (m : List (List Nat)) (b : Buf) (w : World), 50 ≤ b.length → (graphRows sys m b w).Returns
  | [], b, w, _ => ⟨w, rfl⟩
  | l :: r, b, w, hb => by
    obtain ⟨w1, e1, _, _⟩ := logger_prints hc (msg := "[".toList) (by simp [NoNul]) w
    obtain ⟨b2, w2, e2, l2, _, _⟩ := sayAll_ok hc (l.map (fun i => fmtU i ++ ", ".toList)) b w1 (fun t ht => by
      obtain ⟨i, _, rfl⟩ := List.mem_map.1 ht
      have := fmtU_length i
      exact ⟨noNul_append.2 ⟨fmtU_noNul i, by simp [NoNul]⟩, by simp; omega⟩)
    obtain ⟨w3, e3, _, _⟩ := logger_prints hc (msg := "]\n".toList) (by simp [NoNul]) w2
    obtain ⟨w4, e4⟩ := graphRows_returns hc r b2 w3 (by omega)
    exact ⟨w4, by simp only [graphRows, e1, Outcome.ok_bind, e2, e3, e4]⟩

theorem head_text {U A B C : Text} (nu : NoNul U) (na : NoNul A) (nb : NoNul B) (nc : NoNul C) (u : U.length ≤ 11) (a : A.length ≤ 19) (b : B.length ≤ 19)
    (c : C.length ≤ 19) :
    NoNul ("numVertices: ".toList ++ U ++ ", verticesA.length: ".toList ++ A ++ ",  verticesB.length: ".toList ++ B ++ ", edgeWeights.length: ".toList ++ C ++
      ", edges.length: ".toList ++ U ++ "\n".toList) ∧
    ("numVertices: ".toList ++ U ++ ", verticesA.length: ".toList ++ A ++ ",  verticesB.length: ".toList ++ B ++ ", edgeWeights.length: ".toList ++ C ++
      ", edges.length: ".toList ++ U ++ "\n".toList).length ≤ 200 := by
  have c1 : NoNul "numVertices: ".toList := by unfold NoNul; decide +kernel
  have c2 : NoNul ", verticesA.length: ".toList := by unfold NoNul; decide +kernel
  have c3 : NoNul ",  verticesB.length: ".toList := by unfold NoNul; decide +kernel
  have c4 : NoNul ", edgeWeights.length: ".toList := by unfold NoNul; decide +kernel
  have c5 : NoNul ", edges.length: ".toList := by unfold NoNul; decide +kernel
  have c6 : NoNul "\n".toList := by unfold NoNul; decide +kernel
  refine ⟨noNul_append.2 ⟨noNul_append.2 ⟨noNul_append.2 ⟨noNul_append.2 ⟨noNul_append.2 ⟨noNul_append.2 ⟨noNul_append.2 ⟨noNul_append.2 ⟨noNul_append.2
    ⟨noNul_append.2 ⟨c1, nu⟩, c2⟩, na⟩, c3⟩, nb⟩, c4⟩, nc⟩, c5⟩, nu⟩, c6⟩, ?_⟩
  simp only [List.length_append]
  rw [show "numVertices: ".toList.length = 13 from by decide +kernel, show ", verticesA.length: ".toList.length = 20 from by decide +kernel,
    show ",  verticesB.length: ".toList.length = 21 from by decide +kernel, show ", edgeWeights.length: ".toList.length = 22 from by decide +kernel,
    show ", edges.length: ".toList.length = 16 from by decide +kernel, show "\n".toList.length = 1 from by decide +kernel]
  omega

theorem graphHead_text (g : Graph W) (ha : g.va.length < 2 ^ 63) (hb : g.vb.length < 2 ^ 63) (hw : g.wt.length < 2 ^ 63) :
    NoNul (graphHead g) ∧ (graphHead g).length ≤ 200 :=
  head_text (fmtU_noNul _) (fmtL_noNul _) (fmtL_noNul _) (fmtL_noNul _) (fmtU_length _) (fmtL_length ha) (fmtL_length hb) (fmtL_length hw)

/-- **C76, the part that holds**, and its limit. `graph_print` is safe exactly if every edge weight is printed with at most 290 digits before the decimal point. An edge of
    weight `D_MAX`, as between points of which one has an infinite coordinate, makes it write past the end of an array of 300 characters. -/
theorem C76_graph_partial {sys : Sys} (hc : ClockWorks sys) (view : W → Dbl) (g : Graph W) (hpos : ∀ x ∈ g.wt, Dbl.Plain (view x)) (ha : g.va.length < 2 ^ 63)
    (hb : g.vb.length < 2 ^ 63) (hw : g.wt.length < 2 ^ 63) (w : World) :
    ((graph sys view g w).Returns ↔ ∀ x ∈ g.wt, AtMost 6 290 (view x)) ∧ (¬ (graph sys view g w).Returns → (graph sys view g w).IsUB) ∧
    ((∃ x ∈ g.wt, view x = dblMax) → (graph sys view g w).IsUB) := by
  have l0 : (alloc 300).length = 300 := List.length_replicate
  obtain ⟨hn, hl⟩ := graphHead_text g ha hb hw
  obtain ⟨b1, e1, l1, c1⟩ := sprintf_zero (b := alloc 300) hn (by omega)
  obtain ⟨b2, e2, l2, c2⟩ := append_ok (t := "\nVertices A\n".toList) c1 (by simp [NoNul]) (by rw [l1, l0]; simp; omega)
  obtain ⟨w1, e3, _, _⟩ := logBuf_prints hc c2 w
  obtain ⟨b3, w3, e4, l4, _, _⟩ := say_ok hc (b := b2) (t := "\n\nVertices B\n".toList) (by simp [NoNul]) (by rw [l2, l1, l0]; simp)
    (put w1 (g.va.flatMap (fun i => fmtU i ++ ", ".toList)))
  obtain ⟨b4, w4, e5, l5, _, _⟩ := sayAll_ok hc (g.vb.map (fun i => fmtU i ++ ", ".toList)) b3 w3 (fun t ht => by
    obtain ⟨i, _, rfl⟩ := List.mem_map.1 ht
    have := fmtU_length i
    exact ⟨noNul_append.2 ⟨fmtU_noNul i, by simp [NoNul]⟩, by simp; omega⟩)
  obtain ⟨b5, w5, e6, l6, _, _⟩ := say_ok hc (b := b4) (t := "\n\nnedgeWeights\n".toList) (by simp [NoNul]) (by rw [l5, l4, l2, l1, l0]; simp) w4
  have hb5 : b5.length = 300 := by omega
  have hnn : ∀ t ∈ g.wt.map (fun x => fmtF 6 (view x) ++ ", ".toList), NoNul t := by
    intro t ht
    obtain ⟨x, _, rfl⟩ := List.mem_map.1 ht
    exact noNul_append.2 ⟨fmtF_noNul _ _, by simp [NoNul]⟩
  have key : ∀ x ∈ g.wt, ((fmtF 6 (view x)).length ≤ 297 ↔ AtMost 6 290 (view x)) :=
    fun x hx => fmtF_plain (p := 6) (k := 290) (by decide) (by decide) (by decide) (hpos x hx)
  have h := iff_of_cases (x := graph sys view g w) (P := ∀ x ∈ g.wt, AtMost 6 290 (view x))
    (fun h => by
      obtain ⟨b6, w6, e7, l7, _, _⟩ := sayAll_ok hc _ b5 w5 (fun t ht => ⟨hnn t ht, by
        obtain ⟨x, hx, rfl⟩ := List.mem_map.1 ht
        have := (key x hx).2 (h x hx)
        simp; omega⟩)
      obtain ⟨b7, w7, e8, l8, _, _⟩ := say_ok hc (b := b6) (t := "\n\nEdges\n".toList) (by simp [NoNul]) (by rw [l7, hb5]; simp) w6
      obtain ⟨w8, e9⟩ := graphRows_returns hc g.edges b7 w7 (by omega)
      exact ⟨w8, by simp only [graph, e1, e2, e3, e4, e5, e6, e7, e8, e9, Outcome.ok_bind]⟩)
    (fun h => by
      simp only [graph, e1, e2, e3, e4, e5, e6, Outcome.ok_bind]
      refine isUB_bind (sayAll_over hc _ b5 w5 hnn ?_)
      simp only [not_forall] at h
      obtain ⟨x, hx, h⟩ := h
      rw [← key x hx] at h
      exact ⟨_, List.mem_map.2 ⟨x, hx, rfl⟩, by simp; omega⟩)
  refine ⟨h.1, h.2, fun ⟨x, hx, he⟩ => h.2 (fun hr => ?_)⟩
  have := (key x hx).2 (h.1.1 hr x hx)
  rw [he] at this
  have := dblMax_long
  omega

/-! Examples: a distance of 10^11, a score list with a core distance of `D_MAX`, the map of a cluster of one point, statistics, a graph. -/

def farDistance : Distance Nat := { rows := 2, cols := 1, numNeighbors := 1, distances := [some (10 ^ 11)], coreDistances := [] }

/-- **C76 is violated** by two points at a distance of 10^11. -/
theorem C76_distances_violated : (distances exampleSys wholeView 0 farDistance ⟨[], [], 0⟩).IsUB := by
  have h := C76_distances_partial exampleSys_works wholeView 0 farDistance (fun _ _ => 10 ^ 11)
    (fun i j h1 h2 => by
      have h3 : j < 2 := h2
      obtain rfl : i = 0 := by omega
      obtain rfl : j = 1 := by omega
      decide +kernel)
    (fun i j _ _ => ⟨rfl, by norm_num⟩) ⟨[], [], 0⟩
  refine h.2 (fun hr => ?_)
  have := (h.1.1 hr 0 1 (by decide) (by decide)).2
  norm_num at this

example : (distances exampleSys wholeView 0 { farDistance with distances := [some 99999999999] } ⟨[], [], 0⟩).Returns := by
  refine (C76_distances_partial exampleSys_works wholeView 0 { farDistance with distances := [some 99999999999] } (fun _ _ => 99999999999)
    (fun i j h1 h2 => ?_) (fun i j _ _ => ⟨rfl, by norm_num⟩) ⟨[], [], 0⟩).1.2 (fun i j _ _ => ?_)
  · have h3 : j < 2 := h2
    obtain rfl : i = 0 := by omega
    obtain rfl : j = 1 := by omega
    decide +kernel
  · norm_num [wholeView, AtMost]

/-- Whole numbers and `D_MAX`. -/
def topView : Option Nat → Dbl
  | none => dblMax
  | some x => .fin false x

example : (outlierScores exampleSys wholeView wholeView [⟨0, 3, 1⟩, ⟨1, 12345, 0⟩] 2 ⟨[], [], 0⟩).Returns :=
  (C76_outlier_scores_partial exampleSys_works wholeView wholeView [⟨0, 3, 1⟩, ⟨1, 12345, 0⟩] 2 (by decide) ⟨[], [], 0⟩).2.2 (fun s hs => by
    simp only [List.take, List.mem_cons, List.not_mem_nil, or_false] at hs
    rcases hs with rfl | rfl <;> norm_num [wholeView, AtMost])

example : (distanceMap exampleSys topView [(3, ⟨some 4, some 4, some 0, none, some 0, some 0⟩)] ⟨[], [], 0⟩).Returns :=
  (C76_distance_map_partial exampleSys_works topView [(3, ⟨some 4, some 4, some 0, none, some 0, some 0⟩)] ⟨[], [], 0⟩).2.2.1 (fun e he => by
    simp only [List.mem_singleton] at he
    subst he
    norm_num [topView, AtMost])

example : (distanceMap exampleSys topView [(3, ⟨none, none, some 0, none, some 0, some 0⟩)] ⟨[], [], 0⟩).IsUB :=
  (C76_distance_map_partial exampleSys_works topView [(3, ⟨none, none, some 0, none, some 0, some 0⟩)] ⟨[], [], 0⟩).2.2.2.2 ⟨_, List.mem_singleton.2 rfl, rfl, rfl⟩

example : (stats exampleSys wholeView ⟨3, ⟨1, 2, 3, 4, 5, 6⟩, ⟨7, 8, 9, 10, 11, 12⟩⟩ ⟨[], [], 0⟩).Returns :=
  (C76_stats_partial exampleSys_works wholeView ⟨3, ⟨1, 2, 3, 4, 5, 6⟩, ⟨7, 8, 9, 10, 11, 12⟩⟩ ⟨[], [], 0⟩).2.2 (fun v hv => by
    rcases hv with rfl | rfl <;> norm_num [wholeView, AtMost])

example : (graph exampleSys topView { numVertices := 2, va := [0], vb := [1], wt := [none], edges := [[1], [0]] } ⟨[], [], 0⟩).IsUB :=
  (C76_graph_partial exampleSys_works topView { numVertices := 2, va := [0], vb := [1], wt := [none], edges := [[1], [0]] }
    (fun x hx => by simp only [List.mem_singleton] at hx; subst hx; exact ⟨rfl, by norm_num [dblMax]⟩) (by decide) (by decide) (by decide) ⟨[], [], 0⟩).2.2 ⟨none, by simp, rfl⟩

example := C76_logger_partial exampleSys_works .fatal "not enough memory\n".toList (by decide +kernel) ⟨[], [], 0⟩
example := C76_integers_partial exampleSys_works [(0, [4, 12]), (2 ^ 31, [0, 1, 2 ^ 32 - 1])] (by decide) (2 ^ 31) 4000000000 ⟨[], [], 0⟩

/-- `D_MAX` of `nanEnv` taken as the largest double. -/
def nanView : Ieee Rat → Dbl
  | .nan => .nan false
  | .num v => if v = 1000 then dblMax else .fin (decide (v < 0)) |v|

/-- The run on eight rows of which the third contains NaN. -/
example : ∃ obj : Api.Obj (Ieee Rat) Rat Rat, Api.fresh nanEnv (backPar 8 8) 2 nanPts 8 1 true = .ok obj ∧
    ∀ w, (outlierScores exampleSys nanView (fun v => .fin (decide (v < 0)) |v|) obj.results.outliers obj.numPoints w).IsUB :=
  C76_run_violated nanEnv ⟨1000, rfl⟩ (isort_sorts _) nanPts 8 1 (nanSq nanPts) (nan_readable nanPts (by decide)) (by omega) 2 (by omega) 2 (by omega)
    (fun ⟨l, hl, h2, h⟩ => by
      match l, h2 with
      | a :: b :: r, _ =>
        have e : ∀ j, j < 8 → CCmp.lt (distOf nanEnv.dops (nanSq nanPts) 2 j) nanEnv.ar.dmax = true → j = 2 := by decide +kernel
        have h1 := h a (by simp)
        have h2 := h b (by simp)
        have := e a h1.1 h1.2
        have := e b h2.1 h2.2
        simp at hl
        omega)
    nanView rfl (fun v => .fin (decide (v < 0)) |v|) exampleSys_works (backPar 8 8) (backPar_complete 8 8)

end Verif.Props
