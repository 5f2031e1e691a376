import Verif.Props.FixedLater

/-!
# C102: switching sampling of factors and lambdas off and on
-/

namespace LFM

open Spec

/-- **C102**, switches of factors: in layers without automatic clean-up, inference after `mat.fixed = b` leaves value and earlier samples of
the factor as they are if `b` is true, and replaces its samples by new ones if `b` is false, whatever was set before. -/
theorem C102_fixed_switch {s s1 s' : Workshop} (h : Built s) {i k : Nat} {b : Bool} {lr : LayerInfo} (hk : s.m.layers[k]? = some lr)
    (hi : i ∈ lr.factors) (hcl : ¬ lr.Cleans) (h1 : s.step (.setFixed i b) = .ok s1) (S cw : Nat) (eps : ℝ) (bmin : Nat) (bmax : Int)
    (ps fx : Nat) (dr : Draws) (hc : CallOK s1 cw ps fx dr) (hs : s1.step (.infer S cw eps bmin bmax ps fx dr) = .ok s') :
    (b = true → s'.m.world.mat i = s.m.world.mat i ∧ s'.m.trace i = s.m.trace i) ∧
    (b = false → ∃ tr, s'.m.trace i = some tr ∧ tr.shape = S :: (s.m.world.mat i).val.shape ∧ PMArr tr) := by
  have hB : Built s1 := .act (.setFixed i b) h trivial h1
  obtain ⟨-, -, a3, a4, -, -, -, a8, -, -⟩ := C102_after_infer hB S cw eps bmin bmax ps fx dr hc hs
  have e1 : s1 = { s with m := { s.m with fixed := upd s.m.fixed i b } } := by
    simp only [Workshop.step, Except.ok.injEq] at h1; exact h1.symm
  have hf : s1.m.fixed i = b := by rw [e1]; simp [upd]
  have hw : s1.m.world = s.m.world := by rw [e1]
  have ht : s1.m.trace = s.m.trace := by rw [e1]
  have hl : s1.m.layers[k]? = some lr := by rw [e1]; exact hk
  obtain ⟨g1, g2, -⟩ := a3 k lr i hl hcl hi
  refine ⟨fun hb => ⟨by rw [g2 (hf.trans hb), hw], ?_⟩, fun hb => ?_⟩
  · rw [(Workshop.infer_traces hc.perm hs).1 i (hf.trans hb), ht]
  · obtain ⟨tr, t1, t2, t3⟩ := a4 i (hB.sound.mem_free.2 ⟨hf.trans hb, .inr ⟨k, lr, hl, hi⟩⟩)
    exact ⟨tr, t1, by rw [t2, g1, hw], t3⟩

/-- **C102**, switches of lambdas -/
theorem C102_lbda_switch {s s1 s' : Workshop} (h : Built s) {k : Nat} {b : Bool} (hk : k < s.m.layers.length)
    (h1 : s.step (.setLbdaFixed k b) = .ok s1) (S cw : Nat) (eps : ℝ) (bmin : Nat) (bmax : Int)
    (ps fx : Nat) (dr : Draws) (hc : CallOK s1 cw ps fx dr) (hs : s1.step (.infer S cw eps bmin bmax ps fx dr) = .ok s') :
    (b = true → s'.m.world.lbda k = s.m.world.lbda k) ∧
    (b = false → ∃ tr, s'.m.ltrace k = some tr ∧ tr.len = S ∧ ∀ t < S, ∃ y, tr.row t = some (.scalar (.fin y))) := by
  have hB : Built s1 := .act (.setLbdaFixed k b) h trivial h1
  obtain ⟨-, a2, -, -, a5, -⟩ := C102_after_infer hB S cw eps bmin bmax ps fx dr hc hs
  have e1 : s1 = { s with m := { s.m with lfixed := upd s.m.lfixed k b } } := by
    simp only [Workshop.step, Except.ok.injEq] at h1; exact h1.symm
  have hf : s1.m.lfixed k = b := by rw [e1]; simp [upd]
  have hw : s1.m.world = s.m.world := by rw [e1]
  have hl : s1.m.layers = s.m.layers := by rw [e1]
  refine ⟨fun hb => by rw [a2 k (by simp [freeLbdas, hf, hb]), hw], fun hb => a5 k ?_⟩
  simp [freeLbdas, hf, hb, hl, hk]

/-- the hypotheses of `C102_fixed_switch` are met: a machine with two layers, one of whose factors is switched off, and on again after an
inference -/
theorem C102_switch_hypotheses_met : ∃ s s1 s2 s3 s4 lr, Built s ∧ s.m.layers[0]? = some lr ∧ 1 ∈ lr.factors ∧ ¬ lr.Cleans ∧
    s.step (.setFixed 1 true) = .ok s1 ∧ CallOK s1 15 10 0 plainDraws ∧ s1.step (.infer 5 15 0.001 10 100 10 0 plainDraws) = .ok s2 ∧
    Built s2 ∧ s2.m.layers[0]? = some lr ∧
    s2.step (.setFixed 1 false) = .ok s3 ∧ CallOK s3 15 10 0 plainDraws ∧ s3.step (.infer 5 15 0.001 10 100 10 0 plainDraws) = .ok s4 := by
  obtain ⟨s, h1, h2, h3, h4, h5, h6, h7⟩ := add_top shop2_built rfl rfl rfl rfl
  have hl : s.m.layers = [⟨[1, 2], "XOR-AND", none, false, false⟩, ⟨[3, 4], "OR-AND", none, false, false⟩] := h7
  obtain ⟨s1, e1⟩ : ∃ s1, s.step (.setFixed 1 true) = .ok s1 := ⟨_, rfl⟩
  have e1' : s1 = { s with m := { s.m with fixed := upd s.m.fixed 1 true } } := by
    simp only [Workshop.step, Except.ok.injEq] at e1; exact e1.symm
  have b1 : Built s1 := .act (.setFixed 1 true) h1 trivial e1
  have l1 : s1.m.layers = s.m.layers := by rw [e1']
  have m1 : s1.m.matrices = [0] := by rw [e1']; exact h5
  have f1 : s1.m.fixed 0 = true := by rw [e1']; show upd s.m.fixed 1 true 0 = true; rw [upd]; simp [h4]; rfl
  have a1 : s1.m.anneal = false := by rw [e1']; exact h6
  have two : ∀ t : Workshop, t.m.layers = s.m.layers → ∀ (k : Nat) (lr : LayerInfo), t.m.layers[k]? = some lr →
      lr.factors.length = 2 ∧ ¬ lr.Cleans := fun t ht =>
    layers_two (ht.trans hl) ⟨rfl, by simp [LayerInfo.Cleans]⟩ ⟨rfl, by simp [LayerInfo.Cleans]⟩
  have hr1 : Ready s1 := ready_two b1 m1 f1 fun k lr hk => (two s1 l1 k lr hk).1
  have hc1 : CallOK s1 15 10 0 plainDraws := callOK_plain a1 fun k lr hk => (two s1 l1 k lr hk).2
  obtain ⟨s2, e2⟩ := (C102_infer_iff b1 5 15 0.001 10 100 10 0 plainDraws hc1).mpr hr1
  have b2 : Built s2 := .act (.infer 5 15 0.001 10 100 10 0 plainDraws) b1 hc1 e2
  obtain ⟨-, -, -, -, -, l2, m2, f2, -, -⟩ := C102_after_infer b1 5 15 0.001 10 100 10 0 plainDraws hc1 e2
  have a2 : s2.m.anneal = false := by
    rw [Workshop.infer, bind_ok] at e2
    obtain ⟨m', g1, g2⟩ := e2
    obtain ⟨m'', g3, -, -, g4, -⟩ := b1.sound.infer_ok hr1 5 15 0.001 10 100 10 0 plainDraws hc1
    rw [g1] at g3; cases g3
    rw [pure_ok] at g2
    rw [← g2]
    exact g4.anneal.trans a1
  obtain ⟨s3, e3⟩ : ∃ s3, s2.step (.setFixed 1 false) = .ok s3 := ⟨_, rfl⟩
  have e3' : s3 = { s2 with m := { s2.m with fixed := upd s2.m.fixed 1 false } } := by
    simp only [Workshop.step, Except.ok.injEq] at e3; exact e3.symm
  have b3 : Built s3 := .act (.setFixed 1 false) b2 trivial e3
  have l3 : s3.m.layers = s.m.layers := by rw [e3']; exact l2.trans l1
  have m3 : s3.m.matrices = [0] := by rw [e3']; exact m2.trans m1
  have f3 : s3.m.fixed 0 = true := by
    rw [e3']; show upd s2.m.fixed 1 false 0 = true; rw [f2, upd]; simpa using f1
  have a3 : s3.m.anneal = false := by rw [e3']; exact a2
  have hr3 : Ready s3 := ready_two b3 m3 f3 fun k lr hk => (two s3 l3 k lr hk).1
  have hc3 : CallOK s3 15 10 0 plainDraws := callOK_plain a3 fun k lr hk => (two s3 l3 k lr hk).2
  obtain ⟨s4, e4⟩ := (C102_infer_iff b3 5 15 0.001 10 100 10 0 plainDraws hc3).mpr hr3
  exact ⟨s, s1, s2, s3, s4, _, h1, by rw [hl]; rfl, by simp, by simp [LayerInfo.Cleans], e1, hc1, e2, b2, by rw [l2, l1, hl]; rfl, e3, hc3, e4⟩

end LFM
