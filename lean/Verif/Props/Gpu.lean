import Verif.Model.Gpu

/-!
# Property C75: training on a GPU machine
-/

namespace Esat

/-- C75 fails: on a machine with a CUDA device, `train` of the default configuration (`use_gpu=True`) returns `False`
for every data shape, every algorithm, every `hold_h`/`delay_h` setting and every positive `max_iter`, because the loss
is read with the wrong element type in the first iteration. -/
theorem C75_refuted (m n k : ℕ) (updatesH : ℕ → Bool) (maxIter : ℕ) (hpos : 0 < maxIter) :
    gpuTrain (fun i s => lsGpuIter true (updatesH i) [m, n] [m, n] [m, n] s.1 s.2) maxIter 0 (lsGpuInputs m n k)
      = .falseReturned ∧
    gpuTrain (fun i s => wsGpuIter true (updatesH i) [m, n] [m, n] [m, n] s.1 s.2) maxIter 0 ([m, k], [k, n])
      = .falseReturned := by
  obtain ⟨f, rfl⟩ : ∃ f, maxIter = f + 1 := ⟨maxIter - 1, by omega⟩
  have hq : ∀ v u w h, gpuQ true v u w h = none := by
    intro v u w h
    simp [gpuQ, Shp.toScalarF32]
  have h1 : ∀ b v u we w h, lsGpuIter true b v u we w h = none := by
    intro b v u we w h
    simp [lsGpuIter, hq]
  have h2 : ∀ b v u we w h, wsGpuIter true b v u we w h = none := by
    intro b v u we w h
    simp [wsGpuIter, hq]
  simp [gpuTrain, h1, h2]

/-- Even without the element type check, GPU LS-NMF fails for every data shape that is not `k × k`: the factors are
passed transposed, so the first product does not exist. -/
theorem C75_ls_shapes_refuted (m n k : ℕ) (updatesH : ℕ → Bool) (maxIter : ℕ) (hpos : 0 < maxIter)
    (hne : ¬ (m = n ∧ n = k)) :
    gpuTrain (fun i s => lsGpuIter false (updatesH i) [m, n] [m, n] [m, n] s.1 s.2) maxIter 0 (lsGpuInputs m n k)
      = .falseReturned := by
  obtain ⟨f, rfl⟩ : ∃ f, maxIter = f + 1 := ⟨maxIter - 1, by omega⟩
  have h1 : lsGpuIter false (updatesH 0) [m, n] [m, n] [m, n] [k, m] [n, k] = none := by
    by_cases hmn : m = n
    · have hnk : ¬ n = k := fun h => hne ⟨hmn, h⟩
      subst hmn
      cases hu : updatesH 0
      · simp [lsGpuIter, Shp.zip, Shp.matmul, Shp.t, hnk]
      · simp [lsGpuIter, Shp.zip, Shp.matmul, Shp.t, Ne.symm hnk, hnk]
    · cases hu : updatesH 0 <;> simp [lsGpuIter, Shp.zip, Shp.matmul, Shp.t, hmn]
  simp [gpuTrain, lsGpuInputs, h1]

/-- Non-vacuity: a typical data set (100 samples, 20 features, 5 factors) meets the hypotheses. -/
example : ¬ ((100 : ℕ) = 20 ∧ (20 : ℕ) = 5) ∧ 0 < 20000 := by decide

/-- Without both defects (square case, no type check) an iteration would succeed, so the model does not make every
iteration fail. -/
theorem C75_model_sanity_partial (k : ℕ) :
    lsGpuIter false true [k, k] [k, k] [k, k] [k, k] [k, k] = some ([k, k], [k, k]) := by
  simp [lsGpuIter, Shp.zip, Shp.matmul, Shp.t, gpuQ, Shp.toScalarF32]

/-- GPU WS-NMF with H held: without the element type check an iteration succeeds for every shape. Missing: everything
else (`C75_refuted`). -/
theorem C75_ws_hold_shapes_partial (m n k : ℕ) :
    wsGpuIter false false [m, n] [m, n] [m, n] [m, k] [k, n] = some ([m, k], [k, n]) := by
  simp [wsGpuIter, Shp.zip, Shp.matmul, Shp.t, gpuQ, Shp.toScalarF32]

/-- GPU WS-NMF with H updated: an iteration fails for every shape, with or without the element type check, because `|W| ± W` is multiplied by a tensor
with one element (`lib.rs:835-836`). -/
theorem C75_ws_update_refuted (dtypeCheck : Bool) (m n k : ℕ) :
    wsGpuIter dtypeCheck true [m, n] [m, n] [m, n] [m, k] [k, n] = none := by
  have hz : ∀ {β : Type} (a : Shp) (f : Shp → Option β), (a.zip a >>= f) = f a := fun a f => by rw [Shp.zip, if_pos rfl]; rfl
  have hm : ∀ {β : Type} (a b c : ℕ) (f : Shp → Option β), (Shp.matmul [a, b] [b, c] >>= f) = f [a, c] := fun a b c f => by
    rw [Shp.matmul, if_pos rfl]; rfl
  have h1 : ∀ {β : Type} (a b : ℕ) (f : Shp → Option β), (Shp.zip [a, b] [1] >>= f) = none := fun a b f => by
    rw [Shp.zip, if_neg (by simp)]; rfl
  have ht : ∀ {β : Type} (a b : ℕ) (f : Shp → Option β), (Shp.t [a, b] >>= f) = f [b, a] := fun _ _ _ => rfl
  unfold wsGpuIter
  rw [hz, hm, ht, hm, hz, hm, hz, hz, if_pos rfl, hz, h1]

/-- The loss on the GPU, without the element type check, exists exactly if the factors have the same inner dimension. Missing: everything
else (`C75_refuted`). -/
theorem C75_loss_shapes_partial (m n k k' : ℕ) : gpuQ false [m, n] [m, n] [m, k] [k', n] = some () ↔ k = k' := by
  by_cases h : k = k'
  · simp [gpuQ, Shp.zip, Shp.matmul, Shp.toScalarF32, h]
  · simp [gpuQ, Shp.matmul, h]

end Esat
