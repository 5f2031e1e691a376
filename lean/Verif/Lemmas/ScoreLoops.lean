import Verif.Lemmas.Loops

/-! Closed forms of the loop nests of the posterior score functions. -/

namespace LFM

open List

theorem run_flag (L : Nat) (p : Nat → Prop) [DecidablePred p]
    (body : Nat → Bool → Id (ForInStep Bool))
    (h : ∀ a, (body a false).run = if p a then .done true else .yield false) :
    (forIn (List.range L) false body).run = decide (∃ l < L, p l) := by
  rw [run_forIn_find (List.range L) false true body p h]
  simp only [List.mem_range]
  by_cases hp : ∃ l < L, p l
  · rw [if_pos hp]; simp [hp]
  · rw [if_neg hp]; simp [hp]

theorem run_cap (xs : List Nat) (p : Nat → Prop) [DecidablePred p]
    (body : Nat → Nat → Id (ForInStep Nat)) (c : Nat) (hc : c ≤ 1)
    (h : ∀ a s, s ≤ 1 → (body a s).run =
      if p a then if s + 1 > 1 then .done (s + 1) else .yield (s + 1) else .yield s) :
    (forIn xs c body).run = min 2 (c + xs.countP p) := by
  induction xs generalizing c with
  | nil => simp; omega
  | cons x xs ih =>
    rw [List.forIn_cons]
    have hx := h x c hc
    by_cases hp : p x
    · have hcount : (x :: xs).countP p = xs.countP p + 1 := by simp [hp]
      by_cases h1 : c = 1
      · subst h1
        simp only [hp, if_true, show (1 + 1 > 1) by omega] at hx
        simp only [Id.run_bind, hx, Id.run_pure, hcount]
        omega
      · have h0 : c = 0 := by omega
        subst h0
        simp only [hp, if_true, show ¬ (0 + 1 > 1) by omega, if_false] at hx
        simp only [Id.run_bind, hx]
        rw [show (forIn xs (0 + 1) body).run = _ from ih 1 (by omega), hcount]
        omega
    · have hcount : (x :: xs).countP p = xs.countP p := by simp [hp]
      simp only [hp, if_false] at hx
      simp only [Id.run_bind, hx]
      rw [show (forIn xs c body).run = _ from ih c hc, hcount]

/-- value contributed by a cell of an OR-type score -/
def orTerm (skip ex : Prop) [Decidable skip] [Decidable ex] (t : Int) : Int :=
  if skip then 0 else if ex then 0 else t

/-- value contributed by a cell of an XOR-type score; `c` is the number of other active dimensions -/
def xorTerm (skip : Prop) [Decidable skip] (c : Nat) (t0 t1 : Int) : Int :=
  if skip then 0 else if c = 0 then t0 else if c = 1 then t1 else 0

section
variable (D M L : Nat) (w : Int → Int)

theorem run_score_or2 (skip : Nat → Prop) [DecidablePred skip]
    (p : Nat → Nat → Prop) [∀ d, DecidablePred (p d)] (t : Nat → Int) :
    (Id.run do
      let mut score : Int := 0
      for d in List.range D do
        if skip d then
          continue
        let mut a := false
        for l' in List.range L do
          if p d l' then
            a := true
            break
        if a = false then
          score := score + t d
      return w score) =
    w ((List.range D).map fun d => orTerm (skip d) (∃ l < L, p d l) (t d)).sum := by
  simp only [Id.run_bind, Id.run_pure]
  rw [run_forIn_add _ _ _ (fun d => orTerm (skip d) (∃ l < L, p d l) (t d)), zero_add]
  intro d s
  unfold orTerm
  by_cases hs : skip d
  · simp [hs]
  · simp only [hs, if_false, Id.run_bind]
    rw [run_flag L (p d) _ (by intro a; split <;> rfl)]
    by_cases hp : ∃ l < L, p d l
    · simp [hp]
    · simp [hp]

theorem run_score_or2' (p : Nat → Nat → Prop) [∀ d, DecidablePred (p d)] (t : Nat → Int) :
    (Id.run do
      let mut score : Int := 0
      for d in List.range D do
        let mut a := false
        for l' in List.range L do
          if p d l' then
            a := true
            break
        if a = false then
          score := score + t d
      return w score) =
    w ((List.range D).map fun d => orTerm False (∃ l < L, p d l) (t d)).sum := by
  simp only [Id.run_bind, Id.run_pure]
  rw [run_forIn_add _ _ _ (fun d => orTerm False (∃ l < L, p d l) (t d)), zero_add]
  intro d s
  unfold orTerm
  simp only [if_false, Id.run_bind]
  rw [run_flag L (p d) _ (by intro a; split <;> rfl)]
  by_cases hp : ∃ l < L, p d l
  · simp [hp]
  · simp [hp]

theorem run_score_or3 (skip : Nat → Nat → Prop) [∀ d, DecidablePred (skip d)]
    (p : Nat → Nat → Nat → Prop) [∀ d m, DecidablePred (p d m)] (t : Nat → Nat → Int) :
    (Id.run do
      let mut score : Int := 0
      for d in List.range D do
        for m in List.range M do
          if skip d m then
            continue
          let mut a := false
          for l' in List.range L do
            if p d m l' then
              a := true
              break
          if a = false then
            score := score + t d m
      return w score) =
    w ((List.range D).map fun d => ((List.range M).map fun m =>
      orTerm (skip d m) (∃ l < L, p d m l) (t d m)).sum).sum := by
  simp only [Id.run_bind, Id.run_pure]
  rw [run_forIn_add _ _ _ (fun d => ((List.range M).map fun m =>
      orTerm (skip d m) (∃ l < L, p d m l) (t d m)).sum), zero_add]
  intro d s
  simp only [Id.run_bind]
  rw [run_forIn_add _ _ _ (fun m => orTerm (skip d m) (∃ l < L, p d m l) (t d m))]
  · rfl
  intro m s
  unfold orTerm
  by_cases hs : skip d m
  · simp [hs]
  · simp only [hs, if_false, Id.run_bind]
    rw [run_flag L (p d m) _ (by intro a; split <;> rfl)]
    by_cases hp : ∃ l < L, p d m l
    · simp [hp]
    · simp [hp]

/-- the inner counting loop, break inside the `if` -/
theorem run_cap_in (p : Nat → Prop) [DecidablePred p] :
    (forIn (m := Id) (List.range L) 0 fun l' (r : Nat) =>
      if p l' then if r + 1 > 1 then pure (ForInStep.done (r + 1)) else pure (ForInStep.yield (r + 1))
      else pure (ForInStep.yield r)).run = min 2 ((List.range L).countP p) := by
  rw [run_cap (List.range L) p _ 0 (by omega), zero_add]
  intro a s _
  repeat (first | rfl | split)

theorem run_cap_out (p : Nat → Prop) [DecidablePred p] :
    (forIn (m := Id) (List.range L) 0 fun l' (r : Nat) =>
      if p l' then if r + 1 > 1 then pure (ForInStep.done (r + 1)) else pure (ForInStep.yield (r + 1))
      else if r > 1 then pure (ForInStep.done r) else pure (ForInStep.yield r)).run =
      min 2 ((List.range L).countP p) := by
  rw [run_cap (List.range L) p _ 0 (by omega), zero_add]
  intro a s hs
  rw [if_neg (show ¬ (s > 1) by omega)]
  repeat (first | rfl | split)

theorem xor_step (c : Nat) (s t0 t1 r0 r1 : Int) (h0 : r0 = s + t0) (h1 : r1 = s + t1) :
    (if min 2 c = 0 then (pure (ForInStep.yield r0) : Id _)
      else if min 2 c = 1 then pure (ForInStep.yield r1) else pure (ForInStep.yield s)).run =
    ForInStep.yield (s + if c = 0 then t0 else if c = 1 then t1 else 0) := by
  subst h0 h1
  by_cases hc0 : c = 0
  · simp [hc0]
  · rw [if_neg (show ¬ min 2 c = 0 by omega), if_neg hc0]
    by_cases hc1 : c = 1
    · simp [hc1]
    · rw [if_neg (show ¬ min 2 c = 1 by omega), if_neg hc1]; simp

theorem run_score_xor2_in (skip : Nat → Prop) [DecidablePred skip]
    (p : Nat → Nat → Prop) [∀ d, DecidablePred (p d)] (t0 t1 : Nat → Int) (f0 f1 : Nat → Int → Int)
    (h0 : ∀ d s, f0 d s = s + t0 d) (h1 : ∀ d s, f1 d s = s + t1 d) :
    (Id.run do
      let mut score : Int := 0
      for d in List.range D do
        if skip d then
          continue
        let mut a : Nat := 0
        for l' in List.range L do
          if p d l' then
            a := a + 1
            if a > 1 then
              break
        if a = 0 then
          score := f0 d score
        else if a = 1 then
          score := f1 d score
      return w score) =
    w ((List.range D).map fun d =>
      xorTerm (skip d) ((List.range L).countP (p d)) (t0 d) (t1 d)).sum := by
  simp only [Id.run_bind, Id.run_pure]
  rw [run_forIn_add _ _ _ (fun d =>
    xorTerm (skip d) ((List.range L).countP (p d)) (t0 d) (t1 d)), zero_add]
  intro d s
  unfold xorTerm
  by_cases hs : skip d
  · simp [hs]
  · simp only [hs, if_false, Id.run_bind]
    rw [run_cap_in L (p d)]
    exact xor_step _ s _ _ _ _ (h0 d s) (h1 d s)

theorem run_score_xor2_out
    (p : Nat → Nat → Prop) [∀ d, DecidablePred (p d)] (t0 t1 : Nat → Int) (f0 f1 : Nat → Int → Int)
    (h0 : ∀ d s, f0 d s = s + t0 d) (h1 : ∀ d s, f1 d s = s + t1 d) :
    (Id.run do
      let mut score : Int := 0
      for d in List.range D do
        let mut a : Nat := 0
        for l' in List.range L do
          if p d l' then
            a := a + 1
          if a > 1 then
            break
        if a = 0 then
          score := f0 d score
        else if a = 1 then
          score := f1 d score
      return w score) =
    w ((List.range D).map fun d =>
      xorTerm False ((List.range L).countP (p d)) (t0 d) (t1 d)).sum := by
  simp only [Id.run_bind, Id.run_pure]
  rw [run_forIn_add _ _ _ (fun d =>
    xorTerm False ((List.range L).countP (p d)) (t0 d) (t1 d)), zero_add]
  intro d s
  unfold xorTerm
  simp only [if_false, Id.run_bind]
  rw [run_cap_out L (p d)]
  exact xor_step _ s _ _ _ _ (h0 d s) (h1 d s)

theorem run_score_xor3_in (skip : Nat → Nat → Prop) [∀ d, DecidablePred (skip d)]
    (p : Nat → Nat → Nat → Prop) [∀ d m, DecidablePred (p d m)] (t0 t1 : Nat → Nat → Int)
    (f0 f1 : Nat → Nat → Int → Int)
    (h0 : ∀ d m s, f0 d m s = s + t0 d m) (h1 : ∀ d m s, f1 d m s = s + t1 d m) :
    (Id.run do
      let mut score : Int := 0
      for d in List.range D do
        for m in List.range M do
          if skip d m then
            continue
          let mut a : Nat := 0
          for l' in List.range L do
            if p d m l' then
              a := a + 1
              if a > 1 then
                break
          if a = 0 then
            score := f0 d m score
          else if a = 1 then
            score := f1 d m score
      return w score) =
    w ((List.range D).map fun d => ((List.range M).map fun m =>
      xorTerm (skip d m) ((List.range L).countP (p d m)) (t0 d m) (t1 d m)).sum).sum := by
  simp only [Id.run_bind, Id.run_pure]
  rw [run_forIn_add _ _ _ (fun d => ((List.range M).map fun m =>
    xorTerm (skip d m) ((List.range L).countP (p d m)) (t0 d m) (t1 d m)).sum), zero_add]
  intro d s
  simp only [Id.run_bind]
  rw [run_forIn_add _ _ _ (fun m =>
    xorTerm (skip d m) ((List.range L).countP (p d m)) (t0 d m) (t1 d m))]
  · rfl
  intro m s
  unfold xorTerm
  by_cases hs : skip d m
  · simp [hs]
  · simp only [hs, if_false, Id.run_bind]
    rw [run_cap_in L (p d m)]
    exact xor_step _ s _ _ _ _ (h0 d m s) (h1 d m s)

theorem run_score_xor3_out (skip : Nat → Nat → Prop) [∀ d, DecidablePred (skip d)]
    (p : Nat → Nat → Nat → Prop) [∀ d m, DecidablePred (p d m)] (t0 t1 : Nat → Nat → Int)
    (f0 f1 : Nat → Nat → Int → Int)
    (h0 : ∀ d m s, f0 d m s = s + t0 d m) (h1 : ∀ d m s, f1 d m s = s + t1 d m) :
    (Id.run do
      let mut score : Int := 0
      for d in List.range D do
        for m in List.range M do
          if skip d m then
            continue
          let mut a : Nat := 0
          for l' in List.range L do
            if p d m l' then
              a := a + 1
            if a > 1 then
              break
          if a = 0 then
            score := f0 d m score
          else if a = 1 then
            score := f1 d m score
      return w score) =
    w ((List.range D).map fun d => ((List.range M).map fun m =>
      xorTerm (skip d m) ((List.range L).countP (p d m)) (t0 d m) (t1 d m)).sum).sum := by
  simp only [Id.run_bind, Id.run_pure]
  rw [run_forIn_add _ _ _ (fun d => ((List.range M).map fun m =>
    xorTerm (skip d m) ((List.range L).countP (p d m)) (t0 d m) (t1 d m)).sum), zero_add]
  intro d s
  simp only [Id.run_bind]
  rw [run_forIn_add _ _ _ (fun m =>
    xorTerm (skip d m) ((List.range L).countP (p d m)) (t0 d m) (t1 d m))]
  · rfl
  intro m s
  unfold xorTerm
  by_cases hs : skip d m
  · simp [hs]
  · simp only [hs, if_false, Id.run_bind]
    rw [run_cap_out L (p d m)]
    exact xor_step _ s _ _ _ _ (h0 d m s) (h1 d m s)

end

end LFM
