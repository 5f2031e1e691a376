import Verif.Props.RunIBP
import Verif.Props.SpecialHier

/-!
# C117: layers on top of a factor of an OR-AND-IBP layer
-/

namespace LFM

open Spec

/-- **C117** is false: let layer `k` of a machine be an OR-AND-IBP layer of factors `z` and `u` on data `x`, and `p` a layer of
factors `v` and `w` on top of `z` that fits (`w` has a row for each of the `L` latent dimensions below). If there are fewer latent
dimensions than twice the number of rows, there are draws for which one update of `z` leaves the layer on top unfit: its second
factor still has `L` rows, the matrix below has at least `2N` columns. -/
theorem C117_wrong {wr : SpecialWiring} {m : Mach Sampler LbdaUpdate} {lr : LayerInfo} {k x z u v w N D L M : Nat} {y : ℝ}
    (hk : wr.layers[k]? = some lr) (hfac : lr.factors = [z, u]) (hx : wr.child k = x) (hz : wr.layerOf z = some k)
    (hs : m.fct z = some (.ibp [0, 1])) (hne : z ≠ u) (hvz : v ≠ z) (hvu : v ≠ u) (hwz : w ≠ z) (hwu : w ≠ u)
    (sz : (m.world.mat z).val.shape = [N, L]) (su : (m.world.mat u).val.shape = [D, L]) (sx : (m.world.mat x).val.shape = [N, D])
    (pz : PMArr (m.world.mat z).val) (pu : PMArr (m.world.mat u).val) (hl : m.world.lbda k = .scalar (.fin y))
    (sv : (m.world.mat v).val.shape = [N, M]) (sw : (m.world.mat w).val.shape = [L, M])
    (ha : 0 < wr.alpha k) (hq : 0 < wr.prior u ∧ wr.prior u < 1) (hL : L < 2 * N) :
    ∃ (ibp : Nat → Nat → IBPDraws) (m' : Mach Sampler LbdaUpdate) (L' : Nat), (∀ t i n, 0 ≤ (ibp t i).new n ∧ (ibp t i).new n < 1) ∧
      callMat (specialEnv { wr with ibp := ibp }) m z = .ok m' ∧ (m'.world.mat z).val.shape = [N, L'] ∧ 2 * N ≤ L' ∧
      (m'.world.mat v).val.shape = [N, M] ∧ (m'.world.mat w).val.shape = [L, M] := by
  obtain ⟨new, hb, hg⟩ := C97_growth N D L (m.world.mat z).val (m.world.mat u).val ((m.world.mat x).val.transpose [0, 1])
    (by omega) sz su pz pu y (wr.prior u) (wr.alpha k) ha hq.1 hq.2 (fun _ _ => 0) (fun _ _ _ => 0)
  obtain ⟨L', e1, -⟩ := C35_aligned_binary_active N D L (m.world.mat z).val (m.world.mat u).val
    ((m.world.mat x).val.transpose [0, 1]) (by omega) sz su pz pu y (wr.prior u) (wr.alpha k) ⟨fun _ _ => 0, new, fun _ _ _ => 0⟩
  have hsib : siblingIds wr.toWiring lr z = [u] := by
    rw [siblingIds, hfac]
    simp [hne.symm, List.mergeSort]
  refine ⟨fun _ _ => ⟨fun _ _ => 0, new, fun _ _ _ => 0⟩, { m with world := ((m.world.setVal z (sample_2d_IBP (m.world.mat z).val
      (m.world.mat u).val ((m.world.mat x).val.transpose [0, 1]) y (wr.prior u) (wr.alpha k) ⟨fun _ _ => 0, new, fun _ _ _ => 0⟩).1).setVal u
      (sample_2d_IBP (m.world.mat z).val (m.world.mat u).val ((m.world.mat x).val.transpose [0, 1]) y (wr.prior u) (wr.alpha k)
        ⟨fun _ _ => 0, new, fun _ _ _ => 0⟩).2) }, L', fun _ _ => hb, ?_, ?_, ?_, ?_, ?_⟩
  · rw [callMat, hs]
    show (runSpecial _ _ _ _ _ >>= _) = _
    have : runSpecial { wr with ibp := fun _ _ => ⟨fun _ _ => 0, new, fun _ _ _ => 0⟩ } (.ibp [0, 1]) z m.clock m.world =
        .ok ((m.world.setVal z (sample_2d_IBP (m.world.mat z).val
      (m.world.mat u).val ((m.world.mat x).val.transpose [0, 1]) y (wr.prior u) (wr.alpha k) ⟨fun _ _ => 0, new, fun _ _ _ => 0⟩).1).setVal u
      (sample_2d_IBP (m.world.mat z).val (m.world.mat u).val ((m.world.mat x).val.transpose [0, 1]) y (wr.prior u) (wr.alpha k)
        ⟨fun _ _ => 0, new, fun _ _ _ => 0⟩).2) := by
      simp only [runSpecial, hz, hk, Option.bind_some, Option.map_some, hsib, hl, LVal.float?, hx, npTranspose, sx]
      rfl
    rw [this]
    rfl
  · simp [World.setVal, upd, hne, e1]
  · rw [Arr.dim, e1] at hg
    exact hg
  · simp [World.setVal, upd, hvz, hvu, sv]
  · simp [World.setVal, upd, hwz, hwu, sw]

/-- the sampling function of the first factor of an OR-AND-IBP layer is the one of `C117_wrong`, with any layers on top -/
theorem C117_assigned {A B : Member} (hA : A.child_axis = 0) (hB : B.child_axis = 1) (k : Nat) (hk : k = 0) (q : ℝ)
    (pars : List (String × Nat)) (h : ∀ p ∈ pars, p.2 = 2) :
    get_sampling_fct none (some "OR-AND-IBP") [A, B] 0 k q pars = .ok (.ibp [0, 1]) := by
  subst hk
  rw [C115_parents_ignored (.inr rfl) _ _ _ _ _ _ h]
  have hrel : get_relatives_models (some "OR-AND-IBP") 2 [] = .ok (some "OR_AND_IBP_2D", none, none) := by decide
  simp [get_sampling_fct, hrel, bind, Except.bind, pure, Except.pure, axisOrder, siblings2_0, hB]

/-- a sampling function of a matrix in a layer of the eight sampled models, or of the second factor of an OR-AND-IBP layer -/
def PlainSampler : Sampler → Prop
  | .lom .. | .onechild_oneparent .. | .nochild_oneparent .. | .nochild_twoparents .. | .onechild_twoparents .. => True
  | _ => False

/-- the second factor of an OR-AND-IBP layer has such a sampling function, with any layers on top -/
theorem C117_second_plain {A B : Member} (hA : A.child_axis = 0) (hB : B.child_axis = 1) (q : ℝ) (pars : List (String × Nat))
    (h : ∀ p ∈ pars, p.2 = 2) :
    ∃ s, get_sampling_fct none (some "OR-AND-IBP") [A, B] 1 1 q pars = .ok s ∧ PlainSampler s := by
  rw [C115_parents_ignored (.inr rfl) _ _ _ _ _ _ h]
  exact ⟨_, ibp_second hA, trivial⟩

/-- **C117** (partial): as long as the first factors of OR-AND-IBP layers are not sampled (because they are fixed), no matrix of
the machine changes its shape in inference, whatever is drawn: `calls` is any sequence of updates of lambdas and of matrices in
layers of the eight sampled models, or second factors of OR-AND-IBP layers. What is missing: `C117_wrong`. -/
theorem C117_shapes_partial {wr : SpecialWiring} (hsp : ∀ s i t w, ∃ e, wr.special s i t w = .error e) (calls : List InferCall) :
    ∀ {m r : Mach Sampler LbdaUpdate}, (∀ i s, InferCall.mat i ∈ calls → m.fct i = some s → PlainSampler s ∧
      ∃ model fs ax n q pars, get_sampling_fct none model fs ax n q pars = .ok s) →
    calls.foldlM (InferCall.run (specialEnv wr)) m = .ok r → ∀ i, (r.world.mat i).val.shape = (m.world.mat i).val.shape := by
  induction calls with
  | nil => intro m r _ h i; cases h; rfl
  | cons c cs ih =>
    intro m r hf h i
    rw [List.foldlM_cons, bind_ok] at h
    obtain ⟨b, hb, h⟩ := h
    have hb' : b.fct = m.fct ∧ ∀ i, (b.world.mat i).val.shape = (m.world.mat i).val.shape := by
      cases c with
      | endSweep => cases hb; exact ⟨rfl, fun _ => rfl⟩
      | lbda k =>
        rw [InferCall.run, callLbda] at hb
        split at hb
        · cases hb
        · rw [bind_ok] at hb
          obtain ⟨w, hw, hb⟩ := hb
          rw [pure_ok] at hb
          subst hb
          refine ⟨rfl, fun i => ?_⟩
          have hm : w.mat = m.world.mat := by
            change runSpecialLbda wr _ k _ _ = _ at hw
            unfold runSpecialLbda at hw
            split at hw
            · split at hw
              · rw [bind_ok] at hw
                obtain ⟨p, -, hw⟩ := hw
                rw [← pure_ok.1 hw]
              · cases hw
            · unfold runUpdate at hw
              split at hw
              · cases hw
              · rw [bind_ok] at hw
                obtain ⟨p, -, hw⟩ := hw
                rw [← pure_ok.1 hw]
          show (w.mat i).val.shape = _
          rw [hm]
      | mat j =>
        rw [InferCall.run, callMat] at hb
        cases hs : m.fct j with
        | none => rw [hs] at hb; cases hb
        | some s =>
          rw [hs] at hb
          dsimp only at hb
          rw [bind_ok] at hb
          obtain ⟨w, hw, hb⟩ := hb
          rw [pure_ok] at hb
          subst hb
          obtain ⟨hpl, model, fs, ax, n, q, pars, hget⟩ := hf j s (List.mem_cons_self ..) hs
          refine ⟨rfl, fun i => ?_⟩
          have hw' : runSampler wr.toWiring s j m.clock m.world = .ok w := by
            change runSpecial wr s j _ _ = _ at hw
            unfold runSpecial at hw
            split at hw
            · exact hw
            · cases s <;> first | exact hw | exact absurd hpl (by simp [PlainSampler])
          unfold runSampler at hw'
          split at hw'
          · rw [bind_ok] at hw'
            obtain ⟨v, hv, hw'⟩ := hw'
            rw [pure_ok] at hw'
            subst hw'
            have hsh := (C20_sampling_keeps hget _ _ _ _ _ _ _ _ hv).1
            by_cases e : i = j
            · subst e
              show ((m.world.setVal i v).mat i).val.shape = _
              simp only [World.setVal, upd, if_true]
              exact hsh
            · show ((m.world.setVal j v).mat i).val.shape = _
              rw [World.setVal_ne _ _ e]
          · obtain ⟨e, he⟩ := hsp s j m.clock m.world
            rw [he] at hw'
            cases hw'
    rw [ih (m := b) (r := r) (fun i s hi hs => hf i s (List.mem_cons_of_mem _ hi) (by rw [← hb'.1]; exact hs)) h i]
    exact hb'.2 i

/-- **C117**, what that leads to: once there are more columns below than the second factor on top has rows, the update of the
lambda on top depends on memory outside of that factor. Two factors that agree in all their entries lead to different values. -/
theorem C117_reads_outside : ∃ (f : LbdaUpdate) (Z X U U' : Arr Int), get_update_fct none "OR-AND" 2 = .ok f ∧
    Z.shape = [1, 1] ∧ U.shape = [1, 1] ∧ U'.shape = [1, 1] ∧ X.shape = [1, 2] ∧ PMArr Z ∧ PMArr U ∧ PMArr U' ∧ PMArr X ∧
    (∀ i, InB [1, 1] i → U i = U' i) ∧ ∀ q, f.run [Z, U] X q (1, 1) ≠ f.run [Z, U'] X q (1, 1) := by
  refine ⟨.lom (.two (count_correct_2d OR_AND_product)), Arr.full [1, 1] 1, Arr.full [1, 2] 1, Arr.full [1, 1] 1,
    ⟨[1, 1], fun i => if i.getD 0 0 = 0 then 1 else -1⟩, rfl, rfl, rfl, rfl, rfl, fun _ _ => .inl rfl, fun _ _ => .inl rfl, ?_,
    fun _ _ => .inl rfl, ?_, ?_⟩
  · intro i _
    show (if i.getD 0 0 = 0 then (1 : Int) else -1) = 1 ∨ (if i.getD 0 0 = 0 then (1 : Int) else -1) = -1
    split <;> simp
  · intro i hi
    show (1 : Int) = if i.getD 0 0 = 0 then 1 else -1
    match i, hi with
    | [a, b], hi =>
      have : a = 0 := by simp [InB] at hi; omega
      simp [this]
  · intro q h
    have e1 : count_correct_2d OR_AND_product (Arr.full [1, 1] 1) (Arr.full [1, 1] 1) (Arr.full [1, 2] 1) = 2 := by decide
    have e2 : count_correct_2d OR_AND_product (Arr.full [1, 1] 1) ⟨[1, 1], fun i => if i.getD 0 0 = 0 then 1 else -1⟩
        (Arr.full [1, 2] 1) = 1 := by decide
    have e3 : num_observed (Arr.full [1, 2] (1 : Int)) = 2 := by decide
    simp only [LbdaUpdate.run, e1, e2, e3] at h
    have h := Except.ok.inj h
    rw [(lbda_value_pos (P := 2) (ND := 2) (by norm_num) one_pos one_pos).2,
      (lbda_value_pos (P := 1) (ND := 2) (by norm_num) one_pos one_pos).2] at h
    have h := NpF.fin.inj h
    norm_num at h
    have : Real.log (1 / 3) < 0 := Real.log_neg (by norm_num) (by norm_num)
    linarith

/-- sampling functions of the machine `machTower` with an OR-AND-IBP layer below -/
noncomputable def fctTowerIBP (i : Nat) : Option Sampler := if i = 0 then some (.ibp [0, 1]) else none

/-- the hypotheses are met: a layer on top of an OR-AND-IBP layer with two rows and two latent dimensions -/
theorem C117_hypotheses_met : ∃ (ibp : Nat → Nat → IBPDraws) (m' : Mach Sampler LbdaUpdate) (L' : Nat),
    callMat (specialEnv { wiringTower "OR-AND-IBP" none "OR-AND" with ibp := ibp })
      (machTower "OR-AND-IBP" none "OR-AND" fctTowerIBP 1 7) 0 = .ok m' ∧ (m'.world.mat 0).val.shape = [2, L'] ∧ 4 ≤ L' ∧
    (m'.world.mat 4).val.shape = [2, 1] := by
  obtain ⟨ibp, m', L', -, h1, h2, h3, -, h5⟩ := C117_wrong (wr := wiringTower "OR-AND-IBP" none "OR-AND")
    (m := machTower "OR-AND-IBP" none "OR-AND" fctTowerIBP 1 7) (lr := ⟨[0, 1], "OR-AND-IBP", none, false, false⟩) (k := 0) (x := 2)
    (z := 0) (u := 1) (v := 3) (w := 4) (N := 2) (D := 3) (L := 2) (M := 1) (y := 1) rfl rfl rfl rfl rfl (by decide) (by decide)
    (by decide) (by decide) (by decide) rfl rfl rfl (fun _ _ => .inl rfl) (fun _ _ => .inr rfl) rfl rfl rfl
    (by norm_num [wiringTower]) (by norm_num [wiringTower]) (by norm_num)
  exact ⟨ibp, m', L', h1, h2, h3, h5⟩

end LFM
