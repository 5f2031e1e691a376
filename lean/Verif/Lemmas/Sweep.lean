import Verif.Spec.Sweep
import Verif.Lemmas.Arrays

/-! The sampling functions as folds of single-entry updates over the entries in row-major order. -/

namespace LFM

theorem mem_tasks2 {N L : Nat} {i : List Nat} : i ∈ tasks2 N L ↔ ∃ n < N, ∃ l < L, i = [n, l] := by
  simp only [tasks2, List.mem_flatMap, List.mem_range, List.mem_map]
  constructor
  · rintro ⟨n, hn, l, hl, rfl⟩; exact ⟨n, hn, l, hl, rfl⟩
  · rintro ⟨n, hn, l, hl, rfl⟩; exact ⟨n, hn, l, hl, rfl⟩

theorem nodup_tasks2 (N L : Nat) : (tasks2 N L).Nodup := by
  unfold tasks2
  rw [List.nodup_flatMap]
  refine ⟨fun n _ => (List.nodup_range).map (fun a b h => by simpa using h), ?_⟩
  refine (List.nodup_range (n := N)).imp ?_
  intro a b hab i hi hj
  simp only [List.mem_map] at hi hj
  obtain ⟨l, _, rfl⟩ := hi
  obtain ⟨l', _, h⟩ := hj
  simp at h
  exact hab h.1.symm

theorem mem_tasks3 {N D M : Nat} {i : List Nat} :
    i ∈ tasks3 N D M ↔ ∃ n < N, ∃ d < D, ∃ m < M, i = [n, d, m] := by
  simp only [tasks3, List.mem_flatMap, List.mem_range, List.mem_map]
  constructor
  · rintro ⟨n, hn, d, hd, l, hl, rfl⟩; exact ⟨n, hn, d, hd, l, hl, rfl⟩
  · rintro ⟨n, hn, d, hd, l, hl, rfl⟩; exact ⟨n, hn, d, hd, l, hl, rfl⟩

theorem run_sweep2 (N L : Nat) (Z : Arr Int) (fixed : Nat → Nat → Prop)
    [∀ n l, Decidable (fixed n l)] (v : Arr Int → Nat → Nat → Int) :
    (Id.run do
      let mut Z := Z
      for n in List.range N do
        for l in List.range L do
          if fixed n l then
            continue
          Z := Z.set [n, l] (v Z n l)
      return Z) =
    (List.range N).foldl (fun Z n => (List.range L).foldl (fun Z l =>
      if fixed n l then Z else Z.set [n, l] (v Z n l)) Z) Z := by
  simp only [Id.run_bind, Id.run_pure]
  rw [run_forIn_yield _ _ _ (fun Z n => (List.range L).foldl (fun Z l =>
      if fixed n l then Z else Z.set [n, l] (v Z n l)) Z)]
  intro n Z
  simp only [Id.run_bind, Id.run_pure]
  rw [run_forIn_yield _ _ _ (fun Z l => if fixed n l then Z else Z.set [n, l] (v Z n l))]
  intro l Z
  split <;> rfl

theorem run_sweep3 (N D M : Nat) (Z : Arr Int) (fixed : Nat → Nat → Nat → Prop)
    [∀ n d m, Decidable (fixed n d m)] (v : Arr Int → Nat → Nat → Nat → Int) :
    (Id.run do
      let mut Z := Z
      for n in List.range N do
        for d in List.range D do
          for m in List.range M do
            if fixed n d m then
              continue
            Z := Z.set [n, d, m] (v Z n d m)
      return Z) =
    (List.range N).foldl (fun Z n => (List.range D).foldl (fun Z d => (List.range M).foldl (fun Z m =>
      if fixed n d m then Z else Z.set [n, d, m] (v Z n d m)) Z) Z) Z := by
  simp only [Id.run_bind, Id.run_pure]
  rw [run_forIn_yield _ _ _ (fun Z n => (List.range D).foldl (fun Z d => (List.range M).foldl (fun Z m =>
      if fixed n d m then Z else Z.set [n, d, m] (v Z n d m)) Z) Z)]
  intro n Z
  simp only [Id.run_bind, Id.run_pure]
  rw [run_forIn_yield _ _ _ (fun Z d => (List.range M).foldl (fun Z m =>
      if fixed n d m then Z else Z.set [n, d, m] (v Z n d m)) Z)]
  intro d Z
  simp only [Id.run_bind, Id.run_pure]
  rw [run_forIn_yield _ _ _ (fun Z m =>
      if fixed n d m then Z else Z.set [n, d, m] (v Z n d m))]
  intro m Z
  split <;> rfl

theorem foldl_tasks2 {β : Type} (N L : Nat) (step : β → List Nat → β) (b : β) :
    (List.range N).foldl (fun Z n => (List.range L).foldl (fun Z l => step Z [n, l]) Z) b =
      (tasks2 N L).foldl step b := by
  simp only [tasks2, List.foldl_flatMap, List.foldl_map]

theorem foldl_tasks3 {β : Type} (N D M : Nat) (step : β → List Nat → β) (b : β) :
    (List.range N).foldl (fun Z n => (List.range D).foldl (fun Z d => (List.range M).foldl
      (fun Z m => step Z [n, d, m]) Z) Z) b = (tasks3 N D M).foldl step b := by
  simp only [tasks3, List.foldl_flatMap, List.foldl_map]

theorem sampling_onechild_2D_eq (f) (Z Zf U X : Arr Int) (lb lp : ℝ) (rnd : Rnd) :
    sampling_onechild_2D f Z Zf U X lb lp rnd =
      sweep (fun Z i => lb * f (Z.row (i0 i)) U (X.row (i0 i)) (i1 i) + lp) Zf rnd
        (tasks2 (Z.dim 0) (Z.dim 1)) Z := by
  rw [sweep, ← foldl_tasks2]
  exact run_sweep2 _ _ _ _ _

theorem sampling_onechild_3D_eq (f) (Z Zf U V X : Arr Int) (lb lp : ℝ) (rnd : Rnd) :
    sampling_onechild_3D f Z Zf U V X lb lp rnd =
      sweep (fun Z i => lb * f (Z.row (i0 i)) U V (X.row (i0 i)) (i1 i) + lp) Zf rnd
        (tasks2 (Z.dim 0) (Z.dim 1)) Z := by
  rw [sweep, ← foldl_tasks2]
  exact run_sweep2 _ _ _ _ _

theorem sampling_onechild_oneparent_2D_eq (f g) (Z Zf U X : Arr Int) (lb : ℝ) (pa1 pa2 : Arr Int)
    (lpa lp : ℝ) (rnd : Rnd) :
    sampling_onechild_oneparent_2D f g Z Zf U X lb pa1 pa2 lpa lp rnd =
      sweep (fun Z i => lb * f (Z.row (i0 i)) U (X.row (i0 i)) (i1 i) +
        lpa * g (pa1.row (i0 i)) (pa2.row (i1 i)) + lp) Zf rnd
        (tasks2 (Z.dim 0) (Z.dim 1)) Z := by
  rw [sweep, ← foldl_tasks2]
  exact run_sweep2 _ _ _ _ _

theorem sampling_nochild_oneparent_2D_eq (g) (Z Zf pa1 pa2 : Arr Int)
    (lpa lp : ℝ) (rnd : Rnd) :
    sampling_nochild_oneparent_2D g Z Zf pa1 pa2 lpa lp rnd =
      sweep (fun _ i => lpa * g (pa1.row (i0 i)) (pa2.row (i1 i)) + lp) Zf rnd
        (tasks2 (Z.dim 0) (Z.dim 1)) Z := by
  rw [sweep, ← foldl_tasks2]
  exact run_sweep2 _ _ _ _ _

theorem sampling_nochild_twoparents_2D_eq (g) (Z Zf pa11 pa12 : Arr Int) (lpa1 : ℝ)
    (pa21 pa22 : Arr Int) (lpa2 lp : ℝ) (rnd : Rnd) :
    sampling_nochild_twoparents_2D g Z Zf pa11 pa12 lpa1 pa21 pa22 lpa2 lp rnd =
      sweep (fun _ i => lpa1 * g (pa11.row (i0 i)) (pa12.row (i1 i)) +
        lpa2 * g (pa21.row (i0 i)) (pa22.row (i1 i)) + lp) Zf rnd
        (tasks2 (Z.dim 0) (Z.dim 1)) Z := by
  rw [sweep, ← foldl_tasks2]
  exact run_sweep2 _ _ _ _ _

theorem sampling_nochild_twoparents_3D_eq (g) (Z Zf pa11 pa12 pa13 : Arr Int) (lpa1 : ℝ)
    (pa21 pa22 pa23 : Arr Int) (lpa2 lp : ℝ) (rnd : Rnd) :
    sampling_nochild_twoparents_3D g Z Zf pa11 pa12 pa13 lpa1 pa21 pa22 pa23 lpa2 lp rnd =
      sweep (fun _ i => lpa1 * g (pa11.row (i0 i)) (pa12.row (i1 i)) (pa13.row (i2 i)) +
        lpa2 * g (pa21.row (i0 i)) (pa22.row (i1 i)) (pa23.row (i2 i)) + lp) Zf rnd
        (tasks3 (Z.dim 0) (Z.dim 1) (Z.dim 2)) Z := by
  rw [sweep, ← foldl_tasks3]
  exact run_sweep3 _ _ _ _ _ _

theorem sampling_onechild_twoparents_2D_eq (f g) (Z Zf U X : Arr Int) (lb : ℝ) (pa11 pa12 : Arr Int)
    (lpa1 : ℝ) (pa21 pa22 : Arr Int) (lpa2 lp : ℝ) (rnd : Rnd) :
    sampling_onechild_twoparents_2D f g Z Zf U X lb pa11 pa12 lpa1 pa21 pa22 lpa2 lp rnd =
      sweep (fun Z i => lb * f (Z.row (i0 i)) U (X.row (i0 i)) (i1 i) +
        lpa1 * g (pa11.row (i0 i)) (pa12.row (i1 i)) +
        lpa2 * g (pa21.row (i0 i)) (pa22.row (i1 i)) + lp) Zf rnd
        (tasks2 (Z.dim 0) (Z.dim 1)) Z := by
  rw [sweep, ← foldl_tasks2]
  exact run_sweep2 _ _ _ _ _

end LFM
