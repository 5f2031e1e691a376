import Verif.Props.Predict
import Verif.Props.Assemble

/-!
# C81 and C106: predictions of machines built by any sequence of calls
-/

namespace LFM

open Spec

/-- traces that inference does not touch -/
theorem Workshop.infer_traces {s s' : Workshop} {S cw : Nat} {eps : ℝ} {bmin : Nat} {bmax : Int} {ps fx : Nat} {dr : Draws}
    (hp : ∀ t l, ∀ i ∈ dr.perm t l, i ∈ l) (hs : s.infer S cw eps bmin bmax ps fx dr = .ok s') :
    (∀ i, s.m.fixed i = true → s'.m.trace i = s.m.trace i) ∧ (∀ k, s.m.lfixed k = true → s'.m.ltrace k = s.m.ltrace k) ∧
      s'.child = s.child := by
  rw [Workshop.infer, bind_ok] at hs
  obtain ⟨m', h1, h2⟩ := hs
  rw [pure_ok] at h2
  obtain ⟨o1, o2⟩ := C39_others (genericEnv (s.wiring dr)) S cw bmin eps bmax ps fx s.m m' (fun t i hi => hp t _ i hi) h1
  rw [← h2]
  exact ⟨o1, o2, rfl⟩

/-- layer `k` after inference -/
theorem Built.layer_after {s s' : Workshop} (h : Built s) {S cw : Nat} {eps : ℝ} {bmin : Nat} {bmax : Int} {ps fx : Nat}
    {dr : Draws} (hc : CallOK s cw ps fx dr) (hs : s.infer S cw eps bmin bmax ps fx dr = .ok s') (hS : 1 ≤ S) {k : Nat}
    {lr : LayerInfo} (hk : s.m.layers[k]? = some lr) (hfix : ∀ i ∈ lr.factors, s.m.fixed i = true → s.m.trace i = none)
    (hlfix : s.m.lfixed k = true → s.m.ltrace k = none) (pred : Option (Arr NpF)) :
    ∃ (o : OLayer) (L : Nat), s'.m.olayer k pred = some o ∧ o.factors = lr.factors.map s'.m.ofac ∧ o.model = lr.model ∧
      rows o = (s.m.world.mat (s.child k)).val.shape ∧ (∀ f ∈ o.factors, LegalFac L L f) ∧
      (∀ f ∈ o.factors, f.trace ≠ some []) ∧ LegalLbda o.lbda ∧
      (∀ i ∈ lr.factors, s.m.fixed i = false → HasSamples S (s'.m.ofac i)) ∧
      (∀ i ∈ lr.factors, s.m.fixed i = true → (s'.m.ofac i).trace = none) ∧
      (lbdaSamples o.lbda = if s.m.lfixed k = true then none else some S) := by
  have hb' : Built s' := .act (.infer S cw eps bmin bmax ps fx dr) h hc hs
  obtain ⟨c1, c2, c3, c4, c5, c6, c7, c8, c9, -⟩ := C102_after_infer h S cw eps bmin bmax ps fx dr hc hs
  obtain ⟨o1, o2, o3⟩ := Workshop.infer_traces hc.perm hs
  have hk' : s'.m.layers[k]? = some lr := by rw [c6]; exact hk
  have hklt : k < s.m.layers.length := (List.getElem?_eq_some_iff.1 hk).1
  obtain ⟨L, hL⟩ := hb'.sound.world.facs k lr hk'
  have hdims := hb'.sound.world.dims k lr hk'
  rw [o3] at hL hdims
  have hshape : (s'.m.world.mat (s.child k)).val.shape = (s.m.world.mat (s.child k)).val.shape := by
    by_cases hl : s.m.layerOf (s.child k) = none
    · rw [c1 _ hl]
    · obtain ⟨k', hk''⟩ := Option.ne_none_iff_exists'.mp hl
      obtain ⟨-, lr', e1, e2⟩ := h.sound.owner _ k' hk''
      refine (c3 k' lr' _ e1 ?_ e2).1
      intro hcl
      have := hc.clean k' lr' e1 hcl _ e2
      have hm := (h.sound.parents (s.child k) k).2 ⟨hklt, rfl⟩
      rw [this] at hm
      simp at hm
  rw [hshape] at hL hdims
  obtain ⟨y, hy⟩ := hb'.sound.world.lbda k (by rw [c6]; exact hklt)
  obtain ⟨lb, hlb, hlb2, hlb3⟩ : ∃ lb, s'.m.olbda k = some lb ∧ LegalLbda lb ∧
      lbdaSamples lb = if s.m.lfixed k = true then none else some S := by
    cases hf : s.m.lfixed k with
    | true =>
      refine ⟨.scalar (.fin y) none, ?_, ⟨by simp, by simp⟩, rfl⟩
      rw [Mach.olbda, hy, o2 k hf, hlfix hf]
    | false =>
      obtain ⟨tr, t1, t2, t3⟩ := c5 k (by simp [freeLbdas, hf, hklt])
      obtain ⟨xs, rfl, e2, e3⟩ := scalar_trace hS t2 t3
      refine ⟨.scalar (.fin y) (some xs), ?_, ⟨?_, ?_⟩, ?_⟩
      · rw [Mach.olbda, hy, t1]
      · rintro rfl
        simp at e2
        omega
      · intro z hz
        obtain ⟨u, rfl⟩ := e3 z hz
        exact ⟨by simp, by simp⟩
      · simp [lbdaSamples, e2]
  have hfac : ∀ i ∈ lr.factors, LegalFac L L (s'.m.ofac i) ∧ (s'.m.ofac i).trace ≠ some [] ∧
      (s.m.fixed i = false → HasSamples S (s'.m.ofac i)) ∧ (s.m.fixed i = true → (s'.m.ofac i).trace = none) := by
    intro i hi
    obtain ⟨e1, e2⟩ := hL _ (s'.m.world.mat i) (by rw [List.getElem?_map, (hb'.sound.position hi).1]; rfl)
    cases hf : s.m.fixed i with
    | true =>
      have : (s'.m.ofac i).trace = none := by rw [Mach.ofac, o1 i hf, hfix i hi hf]; rfl
      refine ⟨⟨⟨_, e1, ?_⟩, e2, ?_⟩, by rw [this]; simp, by simp, fun _ => this⟩
      · intro tr htr; rw [this] at htr; cases htr
      · intro tr htr; rw [this] at htr; cases htr
    | false =>
      obtain ⟨tr, t1, t2, t3⟩ := c4 i (h.sound.mem_free.2 ⟨hf, .inr ⟨k, lr, hk, hi⟩⟩)
      have ht : (s'.m.ofac i).trace = some (samplesOf tr) := by rw [Mach.ofac, t1]; rfl
      have hlen : (samplesOf tr).length = S := by rw [samplesOf_length, Arr.dim, t2]; rfl
      refine ⟨⟨⟨_, e1, ?_⟩, e2, ?_⟩, ?_, fun _ => ⟨_, ht, hlen⟩, by simp⟩
      · intro tr' htr a ha
        rw [ht, Option.some.injEq] at htr
        subst htr
        rw [(samplesOf_mem t2 t3 ha).1, e1]
      · intro tr' htr a ha
        rw [ht, Option.some.injEq] at htr
        subst htr
        exact (samplesOf_mem t2 t3 ha).2
      · rw [ht]
        intro hc'
        rw [Option.some.injEq] at hc'
        rw [hc'] at hlen
        simp at hlen
        omega
  refine ⟨⟨lr.model, lr.factors.map s'.m.ofac, lb, ⟨[], fun _ => 0⟩, [], pred⟩, L, ?_, rfl, rfl, ?_, ?_, ?_,
    hlb2, fun i hi => (hfac i hi).2.2.1, fun i hi => (hfac i hi).2.2.2, hlb3⟩
  · rw [Mach.olayer, hlb, hk']
  · simp only [rows, List.map_map]
    refine List.ext_getElem (by simpa using hdims.symm) ?_
    intro j hj1 hj2
    rw [List.getElem_map]
    have hj : j < lr.factors.length := by simpa using hj1
    obtain ⟨e1, -⟩ := hL j (s'.m.world.mat lr.factors[j]) (by rw [List.getElem?_map, List.getElem?_eq_getElem hj]; rfl)
    show (s'.m.world.mat lr.factors[j]).val.shape.headD 0 = _
    rw [e1]
    simp [List.getD_eq_getElem?_getD, List.getElem?_eq_getElem hj2]
  · intro f hf
    obtain ⟨i, hi, rfl⟩ := List.mem_map.mp hf
    exact (hfac i hi).1
  · intro f hf
    obtain ⟨i, hi, rfl⟩ := List.mem_map.mp hf
    exact (hfac i hi).2.1

/-- techniques that work for layer `k`: `factor_mean` for two factors, or three and OR-AND; `mc` if lambda and all factors
have been sampled -/
def UsableIn (s : Workshop) (k : Nat) (lr : LayerInfo) (technique : String) : Prop :=
  technique = "point_estimate" ∨ technique = "factor_map" ∨
  technique = "factor_mean" ∧ (lr.factors.length = 2 ∨ lr.factors.length = 3 ∧ lr.model = "OR-AND") ∨
  technique = "mc" ∧ s.m.lfixed k = false ∧ ∀ i ∈ lr.factors, s.m.fixed i = false

/-- **C81** for all machines that calls of the API have built (`_partial`: see `UsableIn` for the techniques; what is fixed has
not been sampled before, see C106). After inference, whatever has been drawn, every prediction of every layer has the shape of
the matrix below and consists of probabilities, with or without noise. -/
theorem C81_built_partial {s s' : Workshop} (h : Built s) (S cw : Nat) (eps : ℝ) (bmin : Nat) (bmax : Int) (ps fx : Nat)
    (dr : Draws) (hc : CallOK s cw ps fx dr) (hs : s.infer S cw eps bmin bmax ps fx dr = .ok s') (hS : 1 ≤ S) (k : Nat)
    (lr : LayerInfo) (hk : s.m.layers[k]? = some lr) (hne : lr.factors ≠ [])
    (hfix : ∀ i ∈ lr.factors, s.m.fixed i = true → s.m.trace i = none)
    (hlfix : s.m.lfixed k = true → s.m.ltrace k = none) (pred : Option (Arr NpF)) :
    ∃ o, s'.m.olayer k pred = some o ∧ ∀ argsort technique noisy mp, UsableIn s k lr technique →
      ∃ P, (output argsort technique noisy false mp o).1 = .ok P ∧ P.shape = (s.m.world.mat (s.child k)).val.shape ∧
        ∀ idx, InB P.shape idx → if mp then IsProb (P idx) else IsSigned (P idx) := by
  obtain ⟨o, L, h1, h2, h3, h4, h5, h6, h7, h8, h9, h10⟩ := h.layer_after hc hs hS hk hfix hlfix pred
  refine ⟨o, h1, ?_⟩
  intro argsort technique noisy mp ht
  obtain ⟨lom, hlom⟩ := h.sound.model k lr hk
  have hlen : o.factors.length = lr.factors.length := by rw [h2, List.length_map]
  have hne' : o.factors ≠ [] := by
    intro hc'
    rw [hc'] at hlen
    exact hne (List.length_eq_zero_iff.1 hlen.symm)
  have hsup : Supported technique o lom.outer lom.inner := by
    rcases ht with ht | ht | ⟨ht, h⟩ | ⟨ht, hl, hf⟩
    · exact .inl ht
    · exact .inr (.inl ht)
    · refine .inr (.inr (.inl ⟨ht, ?_⟩))
      rcases h with h2' | ⟨h3', hm⟩
      · exact .inl ⟨by omega, lom, rfl, rfl⟩
      · have : lom = .OR_AND := by
          rw [hlom] at hm
          revert hm
          cases lom <;> decide
        subst this
        exact .inr ⟨by omega, rfl, rfl⟩
    · refine .inr (.inr (.inr ⟨ht, S, hS, by rw [h10, hl]; rfl, ?_⟩))
      intro f hf'
      rw [h2] at hf'
      obtain ⟨i, hi, rfl⟩ := List.mem_map.mp hf'
      exact h8 i hi (hf i hi)
  obtain ⟨P, p1, p2, p3⟩ := C49_probabilities_partial argsort technique noisy mp o lom.outer lom.inner L L hne' h5
    (.inl (h3.trans hlom)) h6 (.inl rfl) hsup fun _ => h7
  exact ⟨P, p1, p2.trans h4, by rw [p2]; exact p3⟩

end LFM
