import Verif.Spec.Mirror
import Verif.Lemmas.Columns
/-
Rounding is symmetric, and the square of a difference does not depend on its sign.
-/
namespace Verif.Mirror
open Verif Verif.Spec Verif.Props Verif.Binary64 Verif.Columns
variable {D W S T : Type} {f : Format}

theorem roundEven_neg (x : ℚ) : roundEven (-x) = -roundEven x := by
  by_cases hx : x = (⌊x⌋ : ℤ)
  · have h1 : ⌊-x⌋ = -⌊x⌋ := by
      rw [Int.floor_eq_iff]
      push_cast
      constructor <;> linarith
    have h2 : ∀ y : ℚ, y = (⌊y⌋ : ℤ) → roundEven y = ⌊y⌋ := fun y hy => by rw [roundEven, if_pos (by linarith)]
    rw [h2 x hx, h2 (-x) (by rw [h1]; push_cast; linarith), h1]
  · have hlt : (⌊x⌋ : ℚ) < x := lt_of_le_of_ne (Int.floor_le x) (Ne.symm hx)
    have h1 : ⌊-x⌋ = -⌊x⌋ - 1 := by
      rw [Int.floor_eq_iff]
      push_cast
      constructor <;> linarith [Int.lt_floor_add_one x]
    unfold roundEven
    rw [h1]
    push_cast
    rcases lt_trichotomy x (⌊x⌋ + 1 / 2) with h | h | h
    · rw [if_neg (by linarith), if_pos (by linarith), if_pos h]; ring
    · rw [if_neg (by linarith : ¬ -x < -(⌊x⌋ : ℚ) - 1 + 1 / 2), if_neg (by linarith : ¬ -(⌊x⌋ : ℚ) - 1 + 1 / 2 < -x), if_neg (by linarith : ¬ x < (⌊x⌋ : ℚ) + 1 / 2), if_neg (by linarith : ¬ (⌊x⌋ : ℚ) + 1 / 2 < x)]
      by_cases he : ⌊x⌋ % 2 = 0
      · rw [if_pos he, if_neg (by omega : ¬ (-⌊x⌋ - 1) % 2 = 0)]; ring
      · rw [if_neg he, if_pos (by omega : (-⌊x⌋ - 1) % 2 = 0)]; ring
    · rw [if_pos (by linarith), if_neg (by linarith), if_pos h]; ring

theorem round_neg (x : ℚ) : round f (-x) = -round f x := by
  have h : lastDigit f (-x) = lastDigit f x := by simp only [lastDigit, abs_neg]
  simp only [Binary64.round]
  rw [h, neg_div, roundEven_neg]
  push_cast
  ring

theorem neg_fin (x : Fin754 f) : Fp.neg (Fp.fin x) = Fp.fin ⟨-x.1, isBinary_neg x.2.1, by rw [abs_neg]; exact x.2.2⟩ := fp_of_binary (isBinary_neg x.2.1) (by rw [abs_neg]; exact x.2.2)

theorem of_neg (x : ℚ) : (Fp.of (-x) : Fp f) = Fp.neg (Fp.of x) := by
  unfold Fp.of
  by_cases h : |round f x| < 2 ^ f.top
  · rw [dif_pos h, dif_pos (by rw [round_neg, abs_neg]; exact h), neg_fin]
    congr 3
    exact round_neg x
  · rw [dif_neg h, dif_neg (by rw [round_neg, abs_neg]; exact h)]
    have h0 : x ≠ 0 := by
      rintro rfl
      apply h
      have : round f (0 : ℚ) = 0 := by simp [Binary64.round, roundEven]
      rw [this, abs_zero]
      positivity
    rcases lt_or_gt_of_ne h0 with hx | hx
    · rw [decide_eq_true hx, decide_eq_false (by linarith)]; rfl
    · rw [decide_eq_false (by linarith : ¬ x < 0), decide_eq_true (by linarith : -x < 0)]; rfl

theorem neg_neg_fp (x : Fp f) : Fp.neg (Fp.neg x) = x := by
  match x with
  | .nan => rfl
  | .num .ninf => rfl
  | .num .pinf => rfl
  | .num (.fin x) =>
    rw [neg_fin, neg_fin]
    congr 2
    simp

theorem sub_neg_neg (x y : Fp f) : Fp.sub (Fp.neg x) (Fp.neg y) = Fp.neg (Fp.sub x y) := by
  unfold Fp.sub
  match x, y with
  | .nan, .nan => rfl
  | .nan, .num .ninf => rfl
  | .nan, .num .pinf => rfl
  | .nan, .num (.fin y) => rw [neg_fin]; rfl
  | .num .ninf, .nan => rfl
  | .num .ninf, .num .ninf => rfl
  | .num .ninf, .num .pinf => rfl
  | .num .ninf, .num (.fin y) => rw [neg_fin, neg_fin]; rfl
  | .num .pinf, .nan => rfl
  | .num .pinf, .num .ninf => rfl
  | .num .pinf, .num .pinf => rfl
  | .num .pinf, .num (.fin y) => rw [neg_fin, neg_fin]; rfl
  | .num (.fin x), .nan => rw [neg_fin]; rfl
  | .num (.fin x), .num .ninf => rw [neg_fin]; rfl
  | .num (.fin x), .num .pinf => rw [neg_fin]; rfl
  | .num (.fin x), .num (.fin y) =>
    rw [neg_fin, neg_fin, neg_fin]
    show Fp.of (-x.1 + - -y.1) = Fp.neg (Fp.of (x.1 + -y.1))
    rw [← of_neg]
    congr 1
    ring

theorem mul_neg_neg (x : Fp f) : Fp.mul (Fp.neg x) (Fp.neg x) = Fp.mul x x := by
  match x with
  | .nan => rfl
  | .num .ninf => rfl
  | .num .pinf => rfl
  | .num (.fin x) =>
    rw [neg_fin]
    show Fp.of (-x.1 * -x.1) = Fp.of (x.1 * x.1)
    rw [neg_mul_neg]

theorem widen_neg (x : Flt) : Fp.widen (Fp.neg x) = Fp.neg (Fp.widen x) := by
  match x with
  | .nan => rfl
  | .num .ninf => rfl
  | .num .pinf => rfl
  | .num (.fin x) =>
    rw [neg_fin]
    exact of_neg x.1

/-- The sums of a mirror image. -/
theorem sum_mirrored {ops : DistOps D W} {neg : D → D} {flip : Nat → Bool} {data data' : List D} {rows cols : Nat} (h : Mirrored neg flip data data' rows cols)
    (hd : ∀ a ∈ data, ∀ b ∈ data, (ops.diff (neg a) (neg b) >>= fun d => .ok (ops.mul d d)) = ops.diff a b >>= fun d => .ok (ops.mul d d)) {i j : Nat} (hi : i < rows) (hj : j < rows) (s : W) :
    Distance.sumFrom ops data' cols i j cols 0 s = Distance.sumFrom ops data cols i j cols 0 s := by
  have hin : ∀ {x l}, x < rows → l < cols → x * cols + l < data.length := by
    intro x l hx hl
    have : (x + 1) * cols ≤ rows * cols := Nat.mul_le_mul_right _ hx
    have : (x + 1) * cols = x * cols + cols := by ring
    have := h.size
    omega
  have hin' : ∀ {x l}, x < rows → l < cols → x * cols + l < data'.length := by
    intro x l hx hl
    have e := h.same x l hx hl
    rw [List.getElem?_eq_getElem (hin hx hl)] at e
    exact (List.getElem?_eq_some_iff.1 e).1
  rw [sumFrom_eq _ _ _ _ _ _ _ _ fun l _ hl => ⟨hin' hi (by omega), hin' hj (by omega)⟩, sumFrom_eq _ _ _ _ _ _ _ _ fun l _ hl => ⟨hin hi (by omega), hin hj (by omega)⟩]
  refine colSum_congr _ (fun k hk s => ?_) _
  rw [List.mem_range'_1] at hk
  have hk : k < cols := by omega
  rw [h.same i k hi hk, h.same j k hj hk, List.getElem?_eq_getElem (hin hi hk), List.getElem?_eq_getElem (hin hj hk), Option.map_some, Option.map_some]
  cases flip k with
  | false => rfl
  | true =>
    have := hd _ (List.getElem_mem (hin hi hk)) _ (List.getElem_mem (hin hj hk))
    simp only [step, if_true]
    revert this
    generalize ops.diff (neg (data[i * cols + k]'(hin hi hk))) (neg (data[j * cols + k]'(hin hj hk))) = u
    generalize ops.diff (data[i * cols + k]'(hin hi hk)) (data[j * cols + k]'(hin hj hk)) = v
    intro h
    have g : ∀ w : Outcome W, (w >>= fun d => .ok (ops.add s (ops.mul d d))) = (w >>= fun d => .ok (ops.mul d d)) >>= fun q => .ok (ops.add s q) := fun w => by cases w <;> rfl
    rw [g, g, h]

end Verif.Mirror
