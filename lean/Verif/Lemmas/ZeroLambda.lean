import Verif.Spec.Mirror
import Verif.Props.StoredLambda

/-! With log-odds zero every entry that is not fixed is flipped, whatever is drawn. -/

namespace LFM

open Spec

theorem flip_at_zero {z : Int} (hz : IsPM z) (u : ℝ) : flip_metropolised_gibbs_numba 0 z u = -z := by
  unfold flip_metropolised_gibbs_numba
  rcases hz with rfl | rfl <;> simp

theorem sweep_zero (Zf : Arr Int) (rnd : Rnd) (ts : List (List Nat)) (hnd : ts.Nodup) : ∀ (Z : Arr Int),
    (∀ i ∈ ts, IsPM (Z i)) → ∀ i, sweep (fun _ _ => 0) Zf rnd ts Z i =
      if i ∈ ts ∧ Zf i ≠ 1 then -Z i else Z i := by
  induction ts with
  | nil => intro Z _ i; simp [sweep]
  | cons t ts ih =>
    intro Z hZ i
    obtain ⟨hn1, hn2⟩ := List.nodup_cons.mp hnd
    have key : ∀ j, updEntry (fun _ _ => 0) Zf rnd Z t j = if j = t ∧ Zf j ≠ 1 then -Z j else Z j := by
      intro j
      unfold updEntry
      split
      · rename_i h
        by_cases hj : j = t
        · subst hj; simp [h]
        · simp [hj]
      · rename_i h
        by_cases hj : j = t
        · subst hj
          simp only [Arr.set, if_true, true_and, ne_eq, h, not_false_eq_true]
          exact flip_at_zero (hZ j (by simp)) _
        · simp [Arr.set, hj]
    show sweep _ Zf rnd ts (updEntry _ Zf rnd Z t) i = _
    rw [ih hn2 _ (by
      intro j hj
      rw [key]
      have := hZ j (by simp [hj])
      split
      · rcases this with h | h <;> rw [h] <;> simp [IsPM]
      · exact this), key]
    by_cases h1 : i = t
    · subst h1; simp [hn1]
    · simp [h1]

/-- a sampling function of a layer on data with prior 1/2, run with dispersion 0, flips every entry that is not fixed -/
theorem zero_run {lom : Lom8} {K j : Nat} (hK : K = 2 ∨ K = 3) {s : Sampler} (h : GenericSampler lom K j s)
    (h0 : ∃ f o, s = .lom f o 0) {mat : Member} {fs : List Member} (hf : fs.length = K) {k : Nat} (hk : k < K)
    {child : Arr Int} {rnd : Rnd} {R : Arr Int} (hR : s.run mat fs k child 0 [] rnd = .ok R) {N L : Nat}
    (hs : mat.val.shape = [N, L]) (hp : PMArr mat.val) :
    ∀ n < N, ∀ l < L, R [n, l] = if mat.fixed_entries [n, l] = 1 then mat.val [n, l] else -mat.val [n, l] := by
  have hz : ∀ n < N, ∀ l < L, sweep (fun _ _ => 0) mat.fixed_entries rnd (tasks2 (mat.val.dim 0) (mat.val.dim 1)) mat.val [n, l] =
      if mat.fixed_entries [n, l] = 1 then mat.val [n, l] else -mat.val [n, l] := by
    have hd : mat.val.dim 0 = N ∧ mat.val.dim 1 = L := by simp [Arr.dim, hs]
    intro n hn l hl
    rw [hd.1, hd.2, sweep_zero _ _ _ (nodup_tasks2 N L)]
    · have : [n, l] ∈ tasks2 N L := mem_tasks2.mpr ⟨n, hn, l, hl, rfl⟩
      by_cases h1 : mat.fixed_entries [n, l] = 1 <;> simp [this, h1]
    · intro i hi
      obtain ⟨a, ha, b, hb, rfl⟩ := mem_tasks2.mp hi
      exact hp _ (by rw [hs]; exact ⟨ha, hb, trivial⟩)
  obtain ⟨f0, o0, h0⟩ := h0
  obtain ⟨ms, prior, hms, hs'⟩ := h
  have hlen : ((siblings fs k).map Member.val).length = K - 1 := by
    simp [siblings, List.length_eraseIdx, hf, hk]
  rcases hK with rfl | rfl
  · obtain ⟨f, hf', -⟩ := C14_score_2d_partial lom
    have hmk := make_onechild2 lom hf'
    rw [dispatch_onechild (by rw [hms]; exact relatives2 lom) (generic_code2 lom), hmk] at hs'
    simp only [Except.map, Except.ok.injEq] at hs'
    rw [h0] at hs'
    obtain ⟨a, ha⟩ := List.length_eq_one_iff.mp hlen
    simp only [Sampler.lom.injEq] at hs'
    obtain ⟨e1, e2, e3⟩ := hs'
    subst h0
    rw [← e1] at hR
    simp only [Sampler.run, ha, Except.ok.injEq] at hR
    rw [sampling_onechild_2D_eq] at hR
    simp only [zero_mul, add_zero] at hR
    rw [← hR]
    exact hz
  · obtain ⟨f, hf', -⟩ := C15_score_3d lom
    have hmk := make_onechild3 lom hf'
    rw [dispatch_onechild (by rw [hms]; exact relatives3 lom) (generic_code3 lom), hmk] at hs'
    simp only [Except.map, Except.ok.injEq] at hs'
    rw [h0] at hs'
    obtain ⟨a, b, ha⟩ := List.length_eq_two.mp hlen
    simp only [Sampler.lom.injEq] at hs'
    obtain ⟨e1, e2, e3⟩ := hs'
    subst h0
    rw [← e1] at hR
    simp only [Sampler.run, ha, Except.ok.injEq] at hR
    rw [sampling_onechild_3D_eq] at hR
    simp only [zero_mul, add_zero] at hR
    rw [← hR]
    exact hz

theorem logit_half : logit (1 / 2) = 0 := by
  unfold logit
  norm_num

namespace SingleLayer

variable {wr : Wiring} {m : Mach Sampler LbdaUpdate} {lom : Lom8} {lr : LayerInfo} {x : Nat} {sizes : List Nat}

/-- sampling a factor while lambda is 0 -/
theorem flips_mat (H : SingleLayer wr m lom lr x sizes) {X : Arr Int} {i : Nat} (hi : i ∈ freeMats m) {s : Sampler}
    (hs : GenericSampler lom lr.factors.length (lr.factors.idxOf i) s) (h0 : ∃ f o, s = .lom f o 0) (t : Nat) {w : World}
    (hw : LegalWorld lr x sizes X w) (hl : w.lbda 0 = .scalar (.fin 0)) :
    ∃ R, runSampler wr s i t w = .ok (w.setVal i R) ∧ R.shape = (w.mat i).val.shape ∧
      ∀ idx, InB (w.mat i).val.shape idx →
        R idx = if (w.mat i).fixed_entries idx = 1 then (w.mat i).val idx else -(w.mat i).val idx := by
  have hi' := H.mem_free hi
  obtain ⟨R, h1, h2, -, -⟩ := H.runs_mat hi' hs t hw.lbda
  refine ⟨R, h1, h2, ?_⟩
  obtain ⟨L, hL⟩ := hw.facs
  obtain ⟨g1, g2⟩ := hL (lr.factors.idxOf i) (w.mat i) (by rw [List.getElem?_map, (H.position hi').1]; rfl)
  have hv : layerView wr w i = some (lr.factors.map (memberAt wr w), lr.factors.idxOf i, (w.mat (wr.child 0)).val, 0) := by
    rw [layerView, H.wrLayerOf, H.layerOf i hi', H.wrLayers, H.layers]
    show (([lr] : List LayerInfo)[0]? >>= fun lr => (w.lbda 0).float? >>= fun x => _) = _
    rw [hl]
    rfl
  have hp : (wr.parents i).mapM (parentAt wr w) = some [] := by rw [H.parents i hi']; rfl
  obtain ⟨R', hR'⟩ := generic_runs H.arity hs (memberAt wr w i) (lr.factors.map (memberAt wr w)) (by simp)
    (lr.factors.idxOf i) (H.position hi').2.1 (w.mat (wr.child 0)).val 0 (wr.rnd t i)
  have hz := zero_run H.arity hs h0 (by simp) (H.position hi').2.1 hR' (N := sizes.getD (lr.factors.idxOf i) 0) (L := L) g1 g2
  have e : runSampler wr s i t w = .ok (w.setVal i R') := by
    rw [runSampler, hv, hp]
    show (s.run _ _ _ _ _ _ _ >>= _) = _
    rw [hR']
    rfl
  rw [h1] at e
  have e' : R = R' := by
    have := congrArg (fun w : World => (w.mat i).val) (Except.ok.inj e)
    simpa [World.setVal, upd] using this
  subst e'
  intro idx hidx
  rw [g1] at hidx
  match idx, hidx with
  | [n, l], hidx => exact hz n hidx.1 l hidx.2.1

end SingleLayer

end LFM
