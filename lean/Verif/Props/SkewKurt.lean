import Verif.Spec.SkewKurt
import Verif.Lemmas.SkewKurt
import Mathlib.Tactic.Ring
import Mathlib.Tactic.FieldSimp
import Mathlib.Tactic.Linarith
import Mathlib.Tactic.NormNum
/-
C100: skewness and kurtosis do not depend on the number of threads.
-/
namespace Verif.Props
open Spec Stat
set_option linter.unusedSectionVars false

/-- C100, `hdbscan_skew_kurt_1` (the one that is used). However many threads execute it and however their accesses interleave, the fields are what one execution computes
    (`v` and `v'`, see C44), in any arithmetic. -/
theorem C100_first {W : Type} [CCmp W] (o : Ops W) (n : Nat) (xs ys : List W) (old old' v v' : Vals W) (h : kind o n xs old = .ok v) (h' : kind o n ys old' = .ok v')
    (threads : Nat) (ht : 0 < threads) (m0 m : Cell → W)
    (hm : Leaves o threads
      (skewKurt1 o n v.standardDev v'.standardDev (moments o v.mean xs (old.variance, o.zero, o.zero)).2.1 (moments o v'.mean ys (old'.variance, o.zero, o.zero)).2.1
        (moments o v.mean xs (old.variance, o.zero, o.zero)).2.2 (moments o v'.mean ys (old'.variance, o.zero, o.zero)).2.2) m0 m) :
    m .coreSkew = v.skewness ∧ m .intraSkew = v'.skewness ∧ m .coreKurt = v.kurtosis ∧ m .intraKurt = v'.kurtosis := by
  obtain ⟨reg, s, hs, hd, rfl⟩ := hm
  have e : ∀ (xs : List W) (old v : Vals W), kind o n xs old = .ok v →
      v.skewness = o.div (moments o v.mean xs (old.variance, o.zero, o.zero)).2.1 (o.mul (o.ofNat n) (o.pow3 v.standardDev)) ∧
      v.kurtosis = o.sub (o.div (moments o v.mean xs (old.variance, o.zero, o.zero)).2.2 (o.mul (o.ofNat n) (o.pow4 v.standardDev))) (o.ofNat 3) := by
    intro xs old v h
    cases xs with
    | nil => simp [kind, rd] at h
    | cons x xs =>
      have := Outcome.ok.inj h
      subst this
      exact ⟨rfl, rfl⟩
  obtain ⟨a1, a2⟩ := e xs old v h
  obtain ⟨b1, b2⟩ := e ys old' v' h'
  rw [a1, a2, b1, b2]
  exact ⟨put_end ht (by rfl) hs hd, put_end ht (by rfl) hs hd, put_end ht (by rfl) hs hd, put_end ht (by rfl) hs hd⟩

section
variable {W : Type} (o : Ops W) (n : Nat) (sdC sdD sumSC sumSD sumDC sumDD : W)

/-- C100, `hdbscan_skew_kurt_2`, skewness (helper): the same for all threads. -/
theorem skew_any (hn : 2 ≤ n) (threads : Nat) (ht : 0 < threads) (m0 m : Cell → W) (hm : Leaves o threads (skewKurt2 o n sdC sdD sumSC sumSD sumDC sumDD) m0 m) :
    m .coreSkew = o.mul (tmp1 o n) (o.div sumSC (o.pow3 sdC)) ∧ m .intraSkew = o.mul (tmp1 o n) (o.div sumSD (o.pow3 sdD)) := by
  obtain ⟨reg, s, hs, hd, rfl⟩ := hm
  refine ⟨put_end ht ?_ hs hd, put_end ht ?_ hs hd⟩ <;>
  · unfold skewKurt2 skew2 kurt2
    rw [if_pos hn]
    split <;> rfl

/-- C100 (violated), `hdbscan_skew_kurt_2`, kurtosis, exactly: with `threads` threads the kurtosis of the core distances can be the right product with the correction subtracted once, twice, …,
    or as many times as there are threads, and nothing else; in any arithmetic. -/
theorem C100_kurtosis_exact (hn : 3 ≤ n) (threads : Nat) (ht : 0 < threads) (m0 : Cell → W) (x : W) :
    (∃ m, Leaves o threads (skewKurt2 o n sdC sdD sumSC sumSD sumDC sumDD) m0 m ∧ m .coreKurt = x) ↔
      ∃ j, 1 ≤ j ∧ j ≤ threads ∧ x = (fun y => o.sub y (tmp3 o n))^[j] (o.mul (tmp2 o n) (o.div sumDC (o.pow4 sdC))) := by
  have hminus : ∀ a t j, minus o a t j = (fun y => o.sub y t)^[j] a := by
    intro a t j
    induction j with
    | zero => rfl
    | succ j ih => rw [Function.iterate_succ_apply', ← ih]; rfl
  constructor
  · rintro ⟨m, ⟨reg, s, hs, hd, rfl⟩, rfl⟩
    obtain ⟨j, h1, h2, e⟩ := sub_end (c := .coreKurt) (a := o.mul (tmp2 o n) (o.div sumDC (o.pow4 sdC))) (t := tmp3 o n) ht (by
      unfold skewKurt2 skew2 kurt2
      rw [if_pos (show 2 ≤ n by omega), if_pos hn]
      rfl) hs hd
    exact ⟨j, h1, h2, by rw [e, hminus]⟩
  · rintro ⟨j, h1, h2, rfl⟩
    obtain ⟨s, hs, hd, e⟩ := sub_possible o .coreKurt (o.mul (tmp2 o n) (o.div sumDC (o.pow4 sdC))) (tmp3 o n)
      (skew2 o n sdC sdD sumSC sumSD ++ [.put .coreKurt (o.mul (tmp2 o n) (o.div sumDC (o.pow4 sdC))), .put .intraKurt (o.mul (tmp2 o n) (o.div sumDD (o.pow4 sdD)))])
      [.get .intraKurt, .putSub .intraKurt (tmp3 o n)] (fun reg mem => by
        unfold skew2
        rw [if_pos (show 2 ≤ n by omega)]
        rfl) (by simp [Act.on]) threads j h1 h2 (fun _ => o.zero) m0
    refine ⟨s.mem, ⟨fun _ => o.zero, s, ?_, hd, rfl⟩, by rw [e, hminus]⟩
    have : skewKurt2 o n sdC sdD sumSC sumSD sumDC sumDD = (skew2 o n sdC sdD sumSC sumSD ++ [.put .coreKurt (o.mul (tmp2 o n) (o.div sumDC (o.pow4 sdC))),
        .put .intraKurt (o.mul (tmp2 o n) (o.div sumDD (o.pow4 sdD)))]) ++ [.get .coreKurt, .putSub .coreKurt (tmp3 o n)] ++ [.get .intraKurt, .putSub .intraKurt (tmp3 o n)] := by
      unfold skewKurt2 kurt2
      rw [if_pos hn]
      simp
    rw [this]
    exact hs

/-- The same for the kurtosis of the distances: with `threads` threads it can be the right product with the correction subtracted once, twice, …,
    or as many times as there are threads, and nothing else; in any arithmetic. -/
theorem C100_kurtosis_exact_intra (hn : 3 ≤ n) (threads : Nat) (ht : 0 < threads) (m0 : Cell → W) (x : W) :
    (∃ m, Leaves o threads (skewKurt2 o n sdC sdD sumSC sumSD sumDC sumDD) m0 m ∧ m .intraKurt = x) ↔
      ∃ j, 1 ≤ j ∧ j ≤ threads ∧ x = (fun y => o.sub y (tmp3 o n))^[j] (o.mul (tmp2 o n) (o.div sumDD (o.pow4 sdD))) := by
  have hminus : ∀ a t j, minus o a t j = (fun y => o.sub y t)^[j] a := by
    intro a t j
    induction j with
    | zero => rfl
    | succ j ih => rw [Function.iterate_succ_apply', ← ih]; rfl
  constructor
  · rintro ⟨m, ⟨reg, s, hs, hd, rfl⟩, rfl⟩
    obtain ⟨j, h1, h2, e⟩ := sub_end (c := .intraKurt) (a := o.mul (tmp2 o n) (o.div sumDD (o.pow4 sdD))) (t := tmp3 o n) ht (by
      unfold skewKurt2 skew2 kurt2
      rw [if_pos (show 2 ≤ n by omega), if_pos hn]
      rfl) hs hd
    exact ⟨j, h1, h2, by rw [e, hminus]⟩
  · rintro ⟨j, h1, h2, rfl⟩
    obtain ⟨s, hs, hd, e⟩ := sub_possible o .intraKurt (o.mul (tmp2 o n) (o.div sumDD (o.pow4 sdD))) (tmp3 o n)
      (skew2 o n sdC sdD sumSC sumSD ++ [.put .coreKurt (o.mul (tmp2 o n) (o.div sumDC (o.pow4 sdC))), .put .intraKurt (o.mul (tmp2 o n) (o.div sumDD (o.pow4 sdD))),
        .get .coreKurt, .putSub .coreKurt (tmp3 o n)]) [] (fun reg mem => by
        unfold skew2
        rw [if_pos (show 2 ≤ n by omega)]
        rfl) (by simp) threads j h1 h2 (fun _ => o.zero) m0
    refine ⟨s.mem, ⟨fun _ => o.zero, s, ?_, hd, rfl⟩, by rw [e, hminus]⟩
    have : skewKurt2 o n sdC sdD sumSC sumSD sumDC sumDD = (skew2 o n sdC sdD sumSC sumSD ++ [.put .coreKurt (o.mul (tmp2 o n) (o.div sumDC (o.pow4 sdC))),
        .put .intraKurt (o.mul (tmp2 o n) (o.div sumDD (o.pow4 sdD))), .get .coreKurt, .putSub .coreKurt (tmp3 o n)]) ++ [.get .intraKurt, .putSub .intraKurt (tmp3 o n)] ++ [] := by
      unfold skewKurt2 kurt2
      rw [if_pos hn]
      simp
    rw [this]
    exact hs

end

section
variable {K : Type} [Field K] [LinearOrder K] [IsStrictOrderedRing K]

theorem sum_div_pow (xs : List K) (m s : K) (k : Nat) : (xs.map (fun x => ((x - m) / s) ^ k)).sum = (xs.map (fun x => (x - m) ^ k)).sum / s ^ k := by
  induction xs with
  | nil => simp
  | cons x xs ih => rw [List.map_cons, List.sum_cons, ih, List.map_cons, List.sum_cons, div_pow, add_div]

theorem tmp1_exact (sqrt : K → K) {n : Nat} (h3 : 3 ≤ n) (hn : n ≤ 65537) : tmp1 (exactStat K sqrt) n = (n : K) / (((n : K) - 1) * ((n : K) - 2)) := by
  have hs : (n - 1) * (n - 2) < 2 ^ 32 := by
    calc (n - 1) * (n - 2) ≤ 65536 * 65535 := Nat.mul_le_mul (by omega) (by omega)
      _ < 2 ^ 32 := by norm_num
  rw [tmp1, u32, Nat.mod_eq_of_lt hs]
  simp only [exactStat]
  rw [Nat.cast_mul, Nat.cast_sub (by omega), Nat.cast_sub (by omega)]
  norm_num

theorem tmp3_exact (sqrt : K → K) {n : Nat} (h3 : 4 ≤ n) (hn : n ≤ 65537) : tmp3 (exactStat K sqrt) n = 3 * ((n : K) - 1) ^ 2 / (((n : K) - 2) * ((n : K) - 3)) := by
  have hs : (n - 2) * (n - 3) < 2 ^ 32 := by
    calc (n - 2) * (n - 3) ≤ 65535 * 65534 := Nat.mul_le_mul (by omega) (by omega)
      _ < 2 ^ 32 := by norm_num
  rw [tmp3, u32, Nat.mod_eq_of_lt hs]
  simp only [exactStat]
  rw [Nat.cast_mul, Nat.cast_sub (by omega), Nat.cast_sub (by omega), Nat.cast_sub (by omega)]
  norm_num
  ring

theorem tmp2_exact (sqrt : K → K) {n : Nat} (h3 : 4 ≤ n) (hn : n ≤ 1627) :
    tmp2 (exactStat K sqrt) n = (n : K) * ((n : K) + 1) / (((n : K) - 1) * ((n : K) - 2) * ((n : K) - 3)) := by
  have h1 : (n - 1) * (n - 2) ≤ 1626 * 1625 := Nat.mul_le_mul (by omega) (by omega)
  have hs : (n - 1) * (n - 2) * (n - 3) < 2 ^ 32 := by
    calc (n - 1) * (n - 2) * (n - 3) ≤ 1626 * 1625 * 1624 := Nat.mul_le_mul h1 (by omega)
      _ < 2 ^ 32 := by norm_num
  rw [tmp2, u32, u32, u32, Nat.mod_eq_of_lt (show n + 1 < 2 ^ 32 by omega), Nat.mod_eq_of_lt (show (n - 1) * (n - 2) < 2 ^ 32 by omega), Nat.mod_eq_of_lt hs]
  simp only [exactStat]
  rw [Nat.cast_mul, Nat.cast_mul, Nat.cast_sub (by omega), Nat.cast_sub (by omega), Nat.cast_sub (by omega)]
  norm_num

/-- C100, `hdbscan_skew_kurt_2`, the part that holds. In exact arithmetic the skewness is that of a spreadsheet for 3 to 65537 values and any number of threads, the kurtosis for 4 to 1627 values
    and one thread. -/
theorem C100_second_partial (sqrt : K → K) (xs ys : List K) (hl : ys.length = xs.length) (sdC sdD : K) (threads : Nat) (ht : 0 < threads) (m0 m : Cell → K)
    (hm : Leaves (exactStat K sqrt) threads (skewKurt2 (exactStat K sqrt) xs.length sdC sdD (centred 3 xs) (centred 3 ys) (centred 4 xs) (centred 4 ys)) m0 m) :
    (3 ≤ xs.length → xs.length ≤ 65537 → m .coreSkew = sheetSkew xs sdC ∧ m .intraSkew = sheetSkew ys sdD) ∧
    (4 ≤ xs.length → xs.length ≤ 1627 → threads = 1 → m .coreKurt = sheetKurt xs sdC ∧ m .intraKurt = sheetKurt ys sdD) := by
  refine ⟨fun h3 hn => ?_, fun h4 hn h1 => ?_⟩
  · obtain ⟨e1, e2⟩ := skew_any _ _ _ _ _ _ _ _ (by omega) threads ht m0 m hm
    rw [e1, e2, tmp1_exact sqrt h3 hn, sheetSkew, sheetSkew, sum_div_pow, sum_div_pow, hl]
    exact ⟨rfl, rfl⟩
  · subst h1
    obtain ⟨reg, s, hs, hd, rfl⟩ := hm
    have key : ∀ (c : Cell) (a t : K), (skewKurt2 (exactStat K sqrt) xs.length sdC sdD (centred 3 xs) (centred 3 ys) (centred 4 xs) (centred 4 ys)).filter (Act.on c) =
        [.put c a, .get c, .putSub c t] → s.mem c = a - t := by
      intro c a t hc
      obtain ⟨j, j1, j2, e⟩ := sub_end ht hc hs hd
      have : j = 1 := by omega
      subst this
      exact e
    have e1 := key .coreKurt (tmp2 (exactStat K sqrt) xs.length * (centred 4 xs / sdC ^ 4)) (tmp3 (exactStat K sqrt) xs.length) (by
      unfold skewKurt2 skew2 kurt2
      rw [if_pos (show 2 ≤ xs.length by omega), if_pos (show 3 ≤ xs.length by omega)]
      rfl)
    have e2 := key .intraKurt (tmp2 (exactStat K sqrt) xs.length * (centred 4 ys / sdD ^ 4)) (tmp3 (exactStat K sqrt) xs.length) (by
      unfold skewKurt2 skew2 kurt2
      rw [if_pos (show 2 ≤ xs.length by omega), if_pos (show 3 ≤ xs.length by omega)]
      rfl)
    rw [e1, e2, tmp2_exact sqrt h4 hn, tmp3_exact sqrt h4 (by omega), sheetKurt, sheetKurt, sum_div_pow, sum_div_pow, hl]
    exact ⟨rfl, rfl⟩

/-- C100 (violated), `hdbscan_skew_kurt_2`: with two or more threads every set of 4 to 1627 values can get a kurtosis that is too small. -/
theorem C100_threads_violated (sqrt : K → K) (xs ys : List K) (h4 : 4 ≤ xs.length) (hn : xs.length ≤ 1627) (sdC sdD : K) (threads : Nat) (ht : 2 ≤ threads) (m0 : Cell → K) :
    ∃ m, Leaves (exactStat K sqrt) threads (skewKurt2 (exactStat K sqrt) xs.length sdC sdD (centred 3 xs) (centred 3 ys) (centred 4 xs) (centred 4 ys)) m0 m ∧
      m .coreKurt < sheetKurt xs sdC := by
  obtain ⟨m, h1, h2⟩ := (C100_kurtosis_exact (exactStat K sqrt) xs.length sdC sdD (centred 3 xs) (centred 3 ys) (centred 4 xs) (centred 4 ys) (by omega) threads (by omega) m0 _).2
    ⟨2, by omega, ht, rfl⟩
  refine ⟨m, h1, ?_⟩
  rw [h2]
  show tmp2 (exactStat K sqrt) xs.length * (centred 4 xs / sdC ^ 4) - tmp3 (exactStat K sqrt) xs.length - tmp3 (exactStat K sqrt) xs.length < _
  rw [tmp2_exact sqrt h4 hn, tmp3_exact sqrt h4 (by omega), sheetKurt, sum_div_pow, centred]
  have hx : (4 : K) ≤ xs.length := by exact_mod_cast h4
  have : 0 < 3 * ((xs.length : K) - 1) ^ 2 / (((xs.length : K) - 2) * ((xs.length : K) - 3)) := by
    have h1 : (0 : K) < (xs.length : K) - 1 := by linarith
    have h2 : (0 : K) < (xs.length : K) - 2 := by linarith
    have h3 : (0 : K) < (xs.length : K) - 3 := by linarith
    positivity
  linarith

/-- C100 (violated), `hdbscan_skew_kurt_2`: with 1628 values the product of the divisor wraps around; the kurtosis is more than a thousand times too large, even with one thread. -/
theorem C100_wrap_violated (sqrt : K → K) (xs ys : List K) (hx : xs.length = 1628) (sdC sdD : K) (hpos : 0 < centred 4 xs / sdC ^ 4) (m0 m : Cell → K)
    (hm : Leaves (exactStat K sqrt) 1 (skewKurt2 (exactStat K sqrt) xs.length sdC sdD (centred 3 xs) (centred 3 ys) (centred 4 xs) (centred 4 ys)) m0 m) :
    1000 * (sheetKurt xs sdC + 3 * (1627 : K) ^ 2 / (1626 * 1625)) < m .coreKurt + 3 * (1627 : K) ^ 2 / (1626 * 1625) := by
  obtain ⟨j, h1, h2, e⟩ := (C100_kurtosis_exact (exactStat K sqrt) xs.length sdC sdD (centred 3 xs) (centred 3 ys) (centred 4 xs) (centred 4 ys) (by omega) 1 (by omega) m0 _).1 ⟨m, hm, rfl⟩
  have : j = 1 := by omega
  subst this
  rw [e]
  show _ < tmp2 (exactStat K sqrt) xs.length * (centred 4 xs / sdC ^ 4) - tmp3 (exactStat K sqrt) xs.length + _
  rw [tmp3_exact sqrt (by omega) (by omega), sheetKurt, sum_div_pow, hx]
  change 0 < (List.map (fun x => (x - mean xs) ^ 4) xs).sum / sdC ^ 4 at hpos
  have e2 : tmp2 (exactStat K sqrt) 1628 = (1628 : K) * 1629 / ((1627 * 1626 * 1625 - 2 ^ 32 : Nat) : K) := by
    rw [tmp2, show u32 (u32 ((1628 - 1) * (1628 - 2)) * (1628 - 3)) = 1627 * 1626 * 1625 - 2 ^ 32 by decide +kernel, show u32 (1628 + 1) = 1629 by decide +kernel]
    simp only [exactStat]
    norm_num
  rw [e2, centred]
  generalize (List.map (fun x => (x - mean xs) ^ 4) xs).sum / sdC ^ 4 = q at hpos ⊢
  norm_num
  linarith

end

/-- Four values. -/
example (m0 : Cell → Rat) := C100_kurtosis_exact (exactStat Rat id) 4 2 2 0 0 (5 / 2) (5 / 2) (by decide) 8 (by decide) m0
example (m0 : Cell → Rat) := C100_threads_violated id ([1, 2, 3, 4] : List Rat) [1, 2, 3, 4] (by decide) (by decide) 2 2 8 (by decide) m0

/-- There are executions, for any number of threads (C100_second_partial). -/
example (m0 : Cell → Rat) : ∃ m, Leaves (exactStat Rat id) 1 (skewKurt2 (exactStat Rat id) 4 2 2 (centred 3 [1, 2, 3, 4]) (centred 3 [1, 2, 3, 6]) (centred 4 [1, 2, 3, 4])
    (centred 4 [1, 2, 3, 6])) m0 m ∧ m .coreKurt = sheetKurt ([1, 2, 3, 4] : List Rat) 2 := by
  obtain ⟨m, h, _⟩ := (C100_kurtosis_exact (exactStat Rat id) 4 2 2 (centred 3 [1, 2, 3, 4]) (centred 3 [1, 2, 3, 6]) (centred 4 [1, 2, 3, 4]) (centred 4 [1, 2, 3, 6]) (by decide) 1
    (by decide) m0 _).2 ⟨1, by decide, by decide, rfl⟩
  exact ⟨m, h, ((C100_second_partial id [1, 2, 3, 4] [1, 2, 3, 6] rfl 2 2 1 (by decide) m0 m h).2 (by decide) (by decide) rfl).1⟩

end Verif.Props
