import Verif.Lemmas.Total
import Verif.Props.Numeric
import Mathlib.Tactic.FieldSimp
import Mathlib.Algebra.Order.Floor.Ring

/-!
# Lemmas: burn-in with annealing raises nothing by itself
-/

namespace LFM

variable {F G : Type}

/-- the values of one annealing run: `burn_in_min + 1` of them, one step too far -/
theorem annealing_eq (b : Nat) (hb : 1 ≤ b) (x : ℝ) (hx : x ≠ 0) :
    annealing b (.scalar (.fin x)) = .ok ((List.range (b + 1)).map fun i : Nat => x / b + i * (x / b)) := by
  have hb' : (b : ℝ) ≠ 0 := by exact_mod_cast (show b ≠ 0 by omega)
  have hs : x / b ≠ 0 := div_ne_zero hx hb'
  rw [annealing, npArange, if_neg hs]
  have : (x + 2 * x / b - x / b) / (x / b) = ((b + 1 : ℕ) : ℝ) := by
    push_cast
    field_simp
    ring
  rw [this, Int.ceil_natCast, Int.toNat_natCast]

/-- all parameters at once -/
theorem annealTo_zip (pre : Nat) (ks : List Nat) (hnd : ks.Nodup) (st : Nat → List ℝ) (v : Nat → ℝ)
    (hv : ∀ k ∈ ks, (st k)[pre]? = some (v k)) (m : Mach F G) :
    ∃ m', annealTo pre (ks.zip (ks.map st)) m = .ok m' ∧ ∀ k,
      m'.world.lbda k = if k ∈ ks then .scalar (.fin (v k)) else m.world.lbda k := by
  induction ks generalizing m with
  | nil => exact ⟨m, rfl, fun k => by simp⟩
  | cons k ks ih =>
    have hnd' := List.nodup_cons.mp hnd
    obtain ⟨m', h1, h2⟩ := ih hnd'.2 (fun j hj => hv j (by simp [hj]))
      { m with world := { m.world with lbda := upd m.world.lbda k (.scalar (.fin (v k))) } }
    refine ⟨m', ?_, ?_⟩
    · rw [List.map_cons, List.zip_cons_cons, annealTo, hv k (by simp)]
      exact h1
    · intro j
      rw [h2]
      by_cases hj : j = k
      · subst hj; simp [hnd'.1, upd]
      · simp [hj, upd]


theorem annealTo_inv {lbdas : List Nat} {I : World → Prop}
    (hI : ∀ w k x, k ∈ lbdas → I w → I { w with lbda := upd w.lbda k (.scalar (.fin x)) }) (pre : Nat)
    (ss : List (Nat × List ℝ)) (hs : ∀ p ∈ ss, p.1 ∈ lbdas) {m m' : Mach F G} (hw : I m.world)
    (h : annealTo pre ss m = .ok m') : I m'.world := by
  induction ss generalizing m with
  | nil => simp only [annealTo, Except.ok.injEq] at h; rw [← h]; exact hw
  | cons p ss ih =>
    obtain ⟨k, steps⟩ := p
    rw [annealTo] at h
    cases hx : steps[pre]? with
    | none => rw [hx] at h; cases h
    | some x =>
      rw [hx] at h
      exact ih (fun q hq => hs q (by simp [hq])) (hI _ _ _ (hs (k, steps) (by simp)) hw) h

/-- annealing is off, or possible: `fix_lbda_iters` is zero, the parameters are numbers other than zero, the matrix updates
leave the parameters alone and the invariant does not depend on their values -/
def AnnealOK (env : Env F G) (mats lbdas : List Nat) (fct : Nat → Option F) (fx : Nat) (I : World → Prop)
    (m : Mach F G) : Prop :=
  m.anneal = false ∨ fx = 0 ∧ (∀ k ∈ lbdas, ∃ x, x ≠ 0 ∧ m.world.lbda k = .scalar (.fin x)) ∧
    (∀ i ∈ mats, ∀ f, fct i = some f → ∀ t w w', I w → env.runMat f i t w = .ok w' → w'.lbda = w.lbda) ∧
    ∀ w k x, k ∈ lbdas → I w → I { w with lbda := upd w.lbda k (.scalar (.fin x)) }

namespace Healthy

variable {env : Env F G} {mats lbdas : List Nat} {layers : List LayerInfo} {fct : Nat → Option F}
  {lfct : Nat → Option G} {I : World → Prop}

theorem sampleMats_keep (H : Healthy env mats lbdas layers fct lfct I)
    (hk : ∀ i ∈ mats, ∀ f, fct i = some f → ∀ t w w', I w → env.runMat f i t w = .ok w' → w'.lbda = w.lbda)
    {m : Mach F G} (hf : m.fct = fct) (hw : I m.world) :
    ∃ w', LFM.sampleMats env mats m = .ok { m with world := w', clock := m.clock + 1 } ∧ I w' ∧ w'.lbda = m.world.lbda := by
  have H' : Healthy env mats [] [] fct lfct fun w => I w ∧ w.lbda = m.world.lbda := by
    refine ⟨H.perm, ?_, by simp, by simp⟩
    intro i hi
    obtain ⟨f, h1, h2⟩ := H.mat i hi
    refine ⟨f, h1, ?_⟩
    rintro t w ⟨a1, a2⟩
    obtain ⟨w', b1, b2, b3⟩ := h2 t w a1
    exact ⟨w', b1, ⟨b2, (hk i hi f h1 t w w' a1 b1).trans a2⟩, b3⟩
  obtain ⟨w', h1, ⟨h2, h3⟩, -⟩ := H'.sampleMats hf ⟨hw, rfl⟩
  exact ⟨w', h1, h2, h3⟩

theorem preLoop_anneal (H : Healthy env mats lbdas layers fct lfct I) (hnd : lbdas.Nodup) {b ps : Nat} (hp : ps ≠ 0)
    (hk : ∀ i ∈ mats, ∀ f, fct i = some f → ∀ t w w', I w → env.runMat f i t w = .ok w' → w'.lbda = w.lbda)
    (hI : ∀ w k x, k ∈ lbdas → I w → I { w with lbda := upd w.lbda k (.scalar (.fin x)) })
    (x : Nat → ℝ) (hx : ∀ k ∈ lbdas, x k ≠ 0) (todo : Nat) (hb : todo ≤ b) {steps : List (List ℝ)} {m : Mach F G}
    (hf : m.fct = fct) (ha : m.anneal = true) (hw : I m.world)
    (hst : if todo = b then ∀ k ∈ lbdas, m.world.lbda k = .scalar (.fin (x k))
      else steps = lbdas.map fun k => (List.range (b + 1)).map fun i : Nat => x k / b + i * (x k / b)) :
    ∃ m', LFM.preLoop env mats lbdas b ps 0 todo steps m = .ok m' ∧ I m'.world := by
  induction todo generalizing m steps with
  | zero => exact ⟨m, rfl, hw⟩
  | succ todo ih =>
    obtain ⟨w1, h1, i1, l1⟩ := H.sampleMats_keep hk hf hw
    obtain ⟨m1, hm1⟩ : ∃ m1 : Mach F G, m1 = { m with world := w1, clock := m.clock + 1 } := ⟨_, rfl⟩
    rw [← hm1] at h1
    have w1' : m1.world = w1 := by rw [hm1]
    have hsteps : annealingSteps lbdas b 0 (b - todo) steps m1 =
        .ok (lbdas.map fun k => (List.range (b + 1)).map fun i : Nat => x k / b + i * (x k / b)) := by
      rw [annealingSteps]
      by_cases hp1 : todo + 1 = b
      · rw [if_pos (by omega)]
        rw [if_pos hp1] at hst
        refine mapM_ok _ _ _ fun k hk' => ?_
        rw [w1', l1, hst k hk', annealing_eq b (by omega) (x k) (hx k hk')]
      · rw [if_neg (by omega)]
        rw [if_neg hp1] at hst
        rw [hst]
    obtain ⟨m2, g1, g2⟩ := annealTo_zip (b - todo) lbdas hnd
      (fun k => (List.range (b + 1)).map fun i : Nat => x k / b + i * (x k / b))
      (fun k => x k / b + (b - todo : Nat) * (x k / b))
      (fun k _ => by
        rw [List.getElem?_map, List.getElem?_range (by omega)]
        rfl) m1
    have i2 := annealTo_inv hI (b - todo) _ (fun p hp => by
      have := (List.of_mem_zip hp).1
      exact this) (by rw [w1']; exact i1) g1
    have o := annealTo_only g1
    have hst' : preStep env mats lbdas b ps 0 (b - todo) steps m = .ok (lbdas.map fun k => (List.range (b + 1)).map fun i : Nat =>
        x k / b + i * (x k / b), m2) := by
      unfold preStep
      simp only [hp, if_false, h1, bind, Except.bind, show b - todo > 0 by omega, if_true]
      rw [if_neg (by rw [hm1]; simp [ha])]
      simp only [hsteps, g1]
      rfl
    obtain ⟨m', e1, e2⟩ := ih (by omega) (m := m2)
      (steps := lbdas.map fun k => (List.range (b + 1)).map fun i : Nat => x k / b + i * (x k / b))
      (by rw [o, hm1]; exact hf) (by rw [o, hm1]; exact ha) i2 (by rw [if_neg (by omega)])
    refine ⟨m', ?_, e2⟩
    rw [LFM.preLoop, hst']
    exact e1

theorem burn_in_anneal (H : Healthy env mats lbdas layers fct lfct I) (hnd : lbdas.Nodup) {eps : ℝ} {cw b : Nat}
    {bmax : Int} {ps fx : Nat} (hps : ps ≠ 0) (hcw : cw ≠ 0) {m : Mach F G} (hf : m.fct = fct) (hlf : m.lfct = lfct)
    (hl : m.layers = layers) (ha : AnnealOK env mats lbdas fct fx I m) (hw : I m.world) :
    ∃ m', LFM.burn_in env mats lbdas eps cw b bmax ps fx m = .ok m' ∧ I m'.world := by
  cases hm : m.anneal with
  | false => exact H.burn_in hnd hps hcw hf hlf hl hm hw
  | true =>
    rcases ha with ha | ⟨rfl, hx, hk, hI⟩
    · rw [hm] at ha; cases ha
    have : ∀ k, ∃ x, k ∈ lbdas → x ≠ 0 ∧ m.world.lbda k = .scalar (.fin x) := by
      intro k
      by_cases hk : k ∈ lbdas
      · obtain ⟨x, h⟩ := hx k hk
        exact ⟨x, fun _ => h⟩
      · exact ⟨0, fun h => absurd h hk⟩
    choose x hx using this
    obtain ⟨m1, h1, h2⟩ := H.preLoop_anneal hnd (b := b) hps hk hI x (fun k hk => (hx k hk).1) b (le_refl b) (steps := []) hf hm hw
      (by rw [if_pos rfl]; exact fun k hk => (hx k hk).2)
    have o := preLoop_only h1
    rw [LFM.burn_in, h1]
    refine H.mainLoop hnd hps hcw _ 1 _ rfl (le_refl _) (allocLbdas_good h2 ?_ ?_ ?_ ?_)
    · rw [o]; exact hl
    · rw [o]; exact hf
    · rw [o]; exact hlf
    · simp [ixBefore, show 1 ≤ cw by omega]

end Healthy

end LFM
