import Verif.Lemmas.Stack
import Verif.Props.Size
import Verif.Props.ConcreteAny
/-
C96: how much stack a run needs for its arrays.
-/
namespace Verif.Props
open Spec
variable {D V W S T : Type}

/-- **C96**, for `m` up to the number of points. On every supported data set of `5 ≤ rows ≤ 65536` points and for every `2 ≤ m ≤ rows`, a run with a limited stack gives the
    result of a run with an unlimited one exactly when there are 20 bytes per point for arrays on the stack of the calling thread and 8 bytes per neighbour on that of every
    other thread; otherwise the stack overflows. The same for every sequence of reruns.
    Missing: larger `m`, for which the claim is false (`C96_stack_violated`). -/
theorem C96_stack_partial [LinearOrder W] [CCmp S] [LinearOrder T] (env : Api.Env D W S T) (hq : SortsAscending env.qsort) (data : List D) (rows cols : Nat) (f : Nat → Nat → W)
    (h : Supported env data rows cols f) (h5 : 5 ≤ rows) :
    ∃ obj : Nat → Api.Obj W S T, ∀ m, 2 ≤ m → m ≤ rows →
      (∀ par, Complete rows rows par → Api.fresh env par m data rows cols true = .ok (obj m)) ∧
      (∀ (lim : Stack.Limits) (par : Api.Par), Complete rows rows par →
        (Stack.fresh lim env par m data rows cols true = .ok (obj m) ↔ 20 * rows ≤ lim.main ∧ 8 * m ≤ lim.worker) ∧
        (¬ (20 * rows ≤ lim.main ∧ 8 * m ≤ lim.worker) → (Stack.fresh lim env par m data rows cols true).IsUB)) ∧
      ∀ (lim : Stack.Limits) (m0 : Nat) (hist : List (Nat × Api.Par)) (par : Api.Par), 20 * rows ≤ lim.main → 8 * m ≤ lim.worker → 2 ≤ m0 → m0 ≤ rows →
        (∀ c ∈ hist, 2 ≤ c.1 ∧ c.1 ≤ rows ∧ 8 * c.1 ≤ lim.worker ∧ Complete rows rows c.2) → Complete rows rows par →
        Stack.reruns lim env (hist ++ [(m, par)]) (obj m0) = .ok (obj m) := by
  have hfew := h.few
  obtain ⟨C, core, O, key⟩ := api_rep h hq (by omega)
  have hfresh : ∀ m, 2 ≤ m → m ≤ rows → ∀ par, Complete rows rows par → Api.fresh env par m data rows cols true = .ok ⟨m, rows, C m, O m⟩ := by
    intro m hm hmr par hp
    rw [Api.fresh, Api.initObj, if_pos (by omega), Outcome.ok_bind]
    exact ((key m (by omega) hmr).2.2.2 par hp).2.2.2.1 h5
  have hcl : ∀ m, 2 ≤ m → m ≤ rows → (O m).clusters.length ≤ rows := by
    intro m hm hmr
    obtain ⟨obj, k1, _, k3, _⟩ := C64_size env hq data rows cols f h h5 m hm hmr
    have hp : Complete rows rows (backPar rows rows) := backPar_complete rows rows
    have e := k1 _ hp
    rw [hfresh m hm hmr _ hp] at e
    cases e
    have k3 : (O m).clusters.length * m ≤ 2 * rows := k3
    have := Nat.mul_le_mul_left (O m).clusters.length hm
    omega
  refine ⟨fun m => ⟨m, rows, C m, O m⟩, fun m hm hmr => ⟨hfresh m hm hmr, fun lim par hp => ?_, fun lim m0 hist par hl hw hm0 hm0r hh hp => ?_⟩⟩
  · have e := Stack.fresh_stack lim (by omega) (by omega) (hfresh m hm hmr par hp)
    have := hcl m hm hmr
    simp only at e
    by_cases c : 20 * rows ≤ lim.main ∧ 8 * m ≤ lim.worker
    · rw [if_pos (by omega)] at e
      exact ⟨⟨fun _ => c, fun _ => e⟩, fun q => absurd c q⟩
    · rw [if_neg (by omega)] at e
      exact ⟨⟨fun q => (by rw [e] at q; cases q), fun q => absurd q c⟩, fun _ => ⟨_, e⟩⟩
  · have hstep : ∀ m m0, 2 ≤ m → m ≤ rows → 2 ≤ m0 → m0 ≤ rows → 8 * m ≤ lim.worker → ∀ par, Complete rows rows par →
        Stack.rerun lim env par m ⟨m0, rows, C m0, O m0⟩ = .ok ⟨m, rows, C m, O m⟩ := by
      intro m m0 hm hmr hm0 hm0r hw par hp
      have e := ((key m (by omega) hmr).2.2.2 par hp).2.2.2.2 m0 (by omega) hm0r
      have := hcl m hm hmr
      rw [Stack.rerun_stack lim (by simp only; omega) (by omega) e, if_pos (by simp only; omega)]
    induction hist generalizing m0 with
    | nil => rw [List.nil_append, Stack.reruns, hstep m m0 hm hmr hm0 hm0r hw par hp]; rfl
    | cons c r ih =>
      obtain ⟨c1, c2, c3, c4⟩ := hh c (by simp)
      rw [List.cons_append, Stack.reruns, hstep c.1 m0 c1 c2 hm0 hm0r c3 c.2 c4, Outcome.ok_bind]
      exact ih c.1 c1 c2 (fun x hx => hh x (by simp [hx]))

/-- For arbitrary data and every `2 ≤ m < 2 ^ 32`: 16 bytes per neighbour and 44 per point on the calling thread are enough, 16 bytes per neighbour are needed. -/
theorem C96_any_partial [LinearOrder V] [CCmp S] [LinearOrder T] (env : Api.Env D (Ieee V) S T) (hd : ∃ v, env.ar.dmax = .num v) (hq : SortsAscending env.qsort)
    (data : List D) (rows cols : Nat) (f : Nat → Nat → Ieee V) (h : Readable env data rows cols f) (h5 : 5 ≤ rows) (m : Nat) (hm : 2 ≤ m) (hm32 : m < 2 ^ 32) :
    ∃ obj : Api.Obj (Ieee V) S T, ∀ par, Complete rows rows par → Api.fresh env par m data rows cols true = .ok obj ∧
      ∀ lim : Stack.Limits,
        (16 * m ≤ lim.main → 44 * rows ≤ lim.main → 8 * m ≤ lim.worker → Stack.fresh lim env par m data rows cols true = .ok obj) ∧
        (lim.main < 16 * m ∨ lim.main < 20 * rows ∨ lim.worker < 8 * m → (Stack.fresh lim env par m data rows cols true).IsUB) := by
  obtain ⟨obj, core, key⟩ := C71_any_data env hd hq data rows cols f h h5
  refine ⟨obj m, fun par hp => ⟨(key m hm).1 par hp, fun lim => ?_⟩⟩
  have e0 := (key m hm).1 par hp
  have e := Stack.fresh_stack lim (by omega) hm32 e0
  have b := (C64_any env par m data rows cols (by omega) (obj m) e0).1
  refine ⟨fun a1 a2 a3 => ?_, fun a => ?_⟩
  · rw [e, if_pos (by omega)]
  · rw [if_neg (by omega)] at e
    exact ⟨_, e⟩

/-- **C96 is violated** when minPoints is more than 2^19: with 8 MiB for arrays on every stack, `hdbscan_run` on any readable data set of 5 to 65536 points overflows the stack of
    the calling thread, although `hdbscan_init` accepts the parameter and the run completes for any data with an unlimited stack. -/
theorem C96_stack_violated [LinearOrder V] [CCmp S] [LinearOrder T] (env : Api.Env D (Ieee V) S T) (hd : ∃ v, env.ar.dmax = .num v) (hq : SortsAscending env.qsort)
    (data : List D) (rows cols : Nat) (f : Nat → Nat → Ieee V) (h : Readable env data rows cols f) (h5 : 5 ≤ rows) (m : Nat) (hm : 2 ^ 19 < m) (hm32 : m < 2 ^ 32)
    (par : Api.Par) (hp : Complete rows rows par) :
    (Api.fresh env par m data rows cols true).Returns ∧ (Stack.fresh ⟨2 ^ 23, 2 ^ 23⟩ env par m data rows cols true).IsUB := by
  obtain ⟨obj, key⟩ := C96_any_partial env hd hq data rows cols f h h5 m (by omega) hm32
  obtain ⟨k1, k2⟩ := key par hp
  exact ⟨⟨obj, k1⟩, (k2 _).2 (.inl (by simp only; omega))⟩

/-- Five points on a line: 100 bytes are enough on the calling thread, 99 are not. -/
example := C96_stack_partial lineEnv (isort_sorts _) linePts 5 1 (lineSq linePts) linePts_supported (by omega)

example : (Stack.fresh ⟨100, 16⟩ lineEnv (backPar 5 5) 2 linePts 5 1 true >>= fun o => .ok o.results.labels) =
    (Api.fresh lineEnv (backPar 5 5) 2 linePts 5 1 true >>= fun o => .ok o.results.labels) ∧
    (Stack.fresh ⟨99, 16⟩ lineEnv (backPar 5 5) 2 linePts 5 1 true >>= fun o => .ok o.results.labels) = .ub "stack overflow" ∧
    (Stack.fresh ⟨100, 15⟩ lineEnv (backPar 5 5) 2 linePts 5 1 true >>= fun o => .ok o.results.labels) = .ub "stack overflow" := by decide +kernel

/-- Eight values with a NaN, `m = 600000`. -/
example := C96_stack_violated nanEnv ⟨1000, rfl⟩ (isort_sorts _) nanPts 8 1 (nanSq nanPts) (nan_readable nanPts (by decide)) (by omega) 600000 (by omega) (by omega)
  (backPar 8 8) (backPar_complete 8 8)

end Verif.Props
