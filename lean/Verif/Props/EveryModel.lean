import Verif.Lemmas.Patterns
import Verif.Props.Unheard
import Verif.Props.EveryData
import Verif.Props.Quiet
import Verif.Props.BuiltConverge

/-!
# C108, C104: for every model there are initial values from which inference ignores the data
-/

namespace LFM

open Spec

namespace Spec

/-- inference from machine `m` returns, and the mean of the samples of every entry of every sampled factor is 0; `set_to_map` sets it
to -1 -/
def SeesNothing (wr : Wiring) (m : Mach Sampler LbdaUpdate) (S cw : Nat) (eps : ℝ) (bmin : Nat) (bmax : Int) (ps fx : Nat) : Prop :=
  ∃ m', infer (genericEnv wr) S cw eps bmin bmax ps fx m = .ok m' ∧
    ∀ i ∈ freeMats m, ∃ a, (m'.ofac i).mean = .nums a ∧ a.shape = (m.world.mat i).val.shape ∧
      ∀ idx, InB (m.world.mat i).val.shape idx → a idx = 0 ∧ (m'.ofac i).set_to_map.val idx = -1

end Spec

theorem sees_nothing {wr : Wiring} {m : Mach Sampler LbdaUpdate} {lom : Lom8} {lr : LayerInfo} {x : Nat}
    {sizes : List Nat} (H : SingleLayer wr m lom lr x sizes) {X : Arr Int} (hX : X.shape = sizes)
    (hw : LegalWorld lr x sizes X m.world) (hc : lr.auto_clean = false) (hr : lr.auto_reset = false)
    (hperm : ∀ t l, (wr.perm t l).Perm l)
    (hprior : ∀ i ∈ freeMats m, m.bernoulli_prior i = 1 / 2 ∧ ∀ s, m.fct i = some s → ∃ f o, s = .lom f o (logit (1 / 2)))
    (hd : Unheard lom (lr.factors.map fun i => (m.world.mat i, m.fixed i)))
    (hfe : ∀ i ∈ lr.factors, ∀ idx, (m.world.mat i).fixed_entries idx ≠ 1)
    (S cw bmin : Nat) (eps : ℝ) (bmax : Int) (ps fx : Nat) (ha : CanAnneal m fx) (hcw : 1 ≤ cw) (hps : 1 ≤ ps) (hS : 0 < S) (hev : Even S) :
    SeesNothing wr m S cw eps bmin bmax ps fx := by
  obtain ⟨m', h1, h2⟩ := C108_unheard_mean H hX hw hc hr hperm hprior hd S cw bmin eps bmax ps fx ha hcw hps hS hev
  refine ⟨m', h1, fun i hi => ?_⟩
  obtain ⟨a, a1, a2, a3⟩ := h2 i hi
  exact ⟨a, a1, a2, fun idx hidx => a3 idx hidx (hfe i (H.mem_free hi) idx)⟩

/-- **C108** is false for *all* models: with two factors of any sizes and at least `quietFrom2` latent dimensions (OR-AND: 6, OR-NAND: 2,
OR-XOR and NAND-XOR: 3, XOR-AND: 10, XOR-XOR and XOR-NXOR: 5, XOR-NAND: 4) there are initial values of the factors such that whatever the
data, whatever lambda (fixed or learned, annealed or not), whichever factors are fixed, and whatever is drawn, the means of an even number of
samples are all 0. -/
theorem C108_every_data_2d (lom : Lom8) (N D : Nat) {L : Nat} (hL : quietFrom2 lom ≤ L) : ∃ (c : Cfg N L) (d : Cfg D L),
    ∀ {wr : Wiring} {m : Mach Sampler LbdaUpdate} {lr : LayerInfo} {x : Nat} (_ : SingleLayer wr m lom lr x [N, D]) {X : Arr Int}
      (_ : X.shape = [N, D]) (_ : LegalWorld lr x [N, D] X m.world) (_ : lr.auto_clean = false) (_ : lr.auto_reset = false)
      (_ : ∀ t l, (wr.perm t l).Perm l)
      (_ : ∀ i ∈ freeMats m, m.bernoulli_prior i = 1 / 2 ∧ ∀ s, m.fct i = some s → ∃ f o, s = .lom f o (logit (1 / 2)))
      (_ : lr.factors.map m.world.mat = [Cfg.free c, Cfg.free d])
      (S cw bmin : Nat) (eps : ℝ) (bmax : Int) (ps fx : Nat) (_ : CanAnneal m fx) (_ : 1 ≤ cw) (_ : 1 ≤ ps) (_ : 0 < S) (_ : Even S),
      SeesNothing wr m S cw eps bmin bmax ps fx := by
  obtain ⟨a, b, hq⟩ := quiet2_exists lom
  refine ⟨constCfg N L a, constCfg D L b, ?_⟩
  intro wr m lr x H X hX hw hc hr hperm hprior hfac S cw bmin eps bmax ps fx ha hcw hps hS hev
  have hlen : lr.factors.length = 2 := by
    simpa using congrArg List.length hfac
  match hlr : lr.factors, hlen with
  | [p, q], _ =>
    rw [hlr] at hfac
    simp only [List.map_cons, List.map_nil, List.cons.injEq, and_true] at hfac
    obtain ⟨e0, e1⟩ := hfac
    refine sees_nothing H hX hw hc hr hperm hprior ?_ ?_ S cw bmin eps bmax ps fx ha hcw hps hS hev
    · rw [hlr]
      simp only [List.map_cons, List.map_nil, e0, e1]
      exact unheard_const2 hq hL _ _
    · intro i hi idx
      rw [hlr] at hi
      simp only [List.mem_cons, List.not_mem_nil, or_false] at hi
      rcases hi with rfl | rfl
      · rw [e0]; simp [Cfg.free, Arr.full]
      · rw [e1]; simp [Cfg.free, Arr.full]

/-- **C108** is false for all models: the same for three factors and at least `quietFrom3` latent dimensions (OR-AND: 12, OR-NAND: 2, OR-XOR: 5,
NAND-XOR: 3, XOR-AND: 23, XOR-XOR: 9, XOR-NXOR: 5, XOR-NAND: 3) -/
theorem C108_every_data_3d (lom : Lom8) (N D M : Nat) {L : Nat} (hL : quietFrom3 lom ≤ L) : ∃ (c : Cfg N L) (d : Cfg D L) (e : Cfg M L),
    ∀ {wr : Wiring} {m : Mach Sampler LbdaUpdate} {lr : LayerInfo} {x : Nat} (_ : SingleLayer wr m lom lr x [N, D, M]) {X : Arr Int}
      (_ : X.shape = [N, D, M]) (_ : LegalWorld lr x [N, D, M] X m.world) (_ : lr.auto_clean = false) (_ : lr.auto_reset = false)
      (_ : ∀ t l, (wr.perm t l).Perm l)
      (_ : ∀ i ∈ freeMats m, m.bernoulli_prior i = 1 / 2 ∧ ∀ s, m.fct i = some s → ∃ f o, s = .lom f o (logit (1 / 2)))
      (_ : lr.factors.map m.world.mat = [Cfg.free c, Cfg.free d, Cfg.free e])
      (S cw bmin : Nat) (eps : ℝ) (bmax : Int) (ps fx : Nat) (_ : CanAnneal m fx) (_ : 1 ≤ cw) (_ : 1 ≤ ps) (_ : 0 < S) (_ : Even S),
      SeesNothing wr m S cw eps bmin bmax ps fx := by
  obtain ⟨a, b, c, hq⟩ := quiet3_exists lom
  refine ⟨constCfg N L a, constCfg D L b, constCfg M L c, ?_⟩
  intro wr m lr x H X hX hw hc hr hperm hprior hfac S cw bmin eps bmax ps fx ha hcw hps hS hev
  have hlen : lr.factors.length = 3 := by
    simpa using congrArg List.length hfac
  match hlr : lr.factors, hlen with
  | [p, q, r], _ =>
    rw [hlr] at hfac
    simp only [List.map_cons, List.map_nil, List.cons.injEq, and_true] at hfac
    obtain ⟨e0, e1, e2⟩ := hfac
    refine sees_nothing H hX hw hc hr hperm hprior ?_ ?_ S cw bmin eps bmax ps fx ha hcw hps hS hev
    · rw [hlr]
      simp only [List.map_cons, List.map_nil, e0, e1, e2]
      exact unheard_const3 hq hL _ _ _
    · intro i hi idx
      rw [hlr] at hi
      simp only [List.mem_cons, List.not_mem_nil, or_false] at hi
      rcases hi with rfl | rfl | rfl
      · rw [e0]; simp [Cfg.free, Arr.full]
      · rw [e1]; simp [Cfg.free, Arr.full]
      · rw [e2]; simp [Cfg.free, Arr.full]

/-- **C108**, default settings: so from these initial values the default machine, with lambda learned and the default arguments of
`infer`, sees nothing of any data matrix -/
theorem C108_every_data_default (lom : Lom8) (N D : Nat) {L : Nat} (hL : quietFrom2 lom ≤ L) : ∃ (c : Cfg N L) (d : Cfg D L),
    ∀ (X : Arr Int) (_ : X.shape = [N, D]) (rnd : Nat → Nat → Rnd) (perm : Nat → List Nat → List Nat) (_ : ∀ t l, (perm t l).Perm l),
      freeMats (plainMach lom c d X) = [0, 1] ∧
      SeesNothing (plainWiring lom rnd perm) (plainMach lom c d X) 50 15 0.005 30 2000 10 0 := by
  obtain ⟨c, d, h⟩ := C108_every_data_2d lom N D hL
  refine ⟨c, d, fun X hX rnd perm hp => ⟨?_, ?_⟩⟩
  · rw [(plain_single lom c d X rnd perm hp).free_eq]
    simp [plainLayer, plainMach, mach2]
  · exact h (plain_single lom c d X rnd perm hp) hX (plain_legal lom c d X) rfl rfl hp (fun i _ => ⟨rfl, fun s hs => by cases hs⟩)
      rfl 50 15 30 0.005 2000 10 0 (.inl rfl) (by norm_num) (by norm_num) (by norm_num) (by decide)

/-- attributes of the machine with three factors -/
noncomputable def tensorWiring (lom : Lom8) (rnd : Nat → Nat → Rnd) (perm : Nat → List Nat → List Nat) : Wiring :=
  { wiring2 false false rnd perm with
    layers := [⟨[0, 1, 2], lom.name, none, false, false⟩]
    layerOf := fun i => if i < 3 then some 0 else none
    parents := fun i => if i = 3 then [0] else []
    child := fun _ => 3 }

/-- the values of its factors and data, and initial lambda 0.05 -/
noncomputable def tensorWorld {N D M L : Nat} (c : Cfg N L) (d : Cfg D L) (e : Cfg M L) (X : Arr Int) : World where
  mat i := if i = 0 then Cfg.free c else if i = 1 then Cfg.free d else if i = 2 then Cfg.free e else ⟨X, Arr.full [N, D, M] 0⟩
  lbda _ := .scalar (.fin (5 / 100))

/-- this machine before inference: factors `c`, `d` and `e`, data `X`, initial lambda 0.05 -/
noncomputable def tensorMach (lom : Lom8) {N D M L : Nat} (c : Cfg N L) (d : Cfg D L) (e : Cfg M L) (X : Arr Int) :
    Mach Sampler LbdaUpdate :=
  { mach2 false false [] with
    layers := [⟨[0, 1, 2], lom.name, none, false, false⟩]
    matrices := [3]
    world := tensorWorld c d e X
    fixed := fun i => i = 3
    layerOf := fun i => if i < 3 then some 0 else none }

theorem tensor_single (lom : Lom8) {N D M L : Nat} (c : Cfg N L) (d : Cfg D L) (e : Cfg M L) (X : Arr Int) (rnd : Nat → Nat → Rnd)
    (perm : Nat → List Nat → List Nat) (hp : ∀ t l, (perm t l).Perm l) :
    SingleLayer (tensorWiring lom rnd perm) (tensorMach lom c d e X) lom ⟨[0, 1, 2], lom.name, none, false, false⟩ 3 [N, D, M] := by
  have hmem : ∀ i, i ∈ ([0, 1, 2] : List Nat) → i = 0 ∨ i = 1 ∨ i = 2 := by
    intro i hi
    simpa using hi
  refine ⟨rfl, rfl, rfl, rfl, by simp, Or.inr rfl, ?_, ?_, ?_, rfl, by simp, ?_, ?_, ?_, rfl, ?_, ?_⟩
  · intro j i h
    match j with
    | 0 => simp only [List.getElem?_cons_zero, Option.some.injEq] at h; exact h.symm
    | 1 => simp only [List.getElem?_cons_succ, List.getElem?_cons_zero, Option.some.injEq] at h; exact h.symm
    | 2 => simp only [List.getElem?_cons_succ, List.getElem?_cons_zero, Option.some.injEq] at h; exact h.symm
    | j + 3 => simp at h
  · intro i hi
    rcases hmem i hi with rfl | rfl | rfl <;> rfl
  · intro i hi
    rcases hmem i hi with rfl | rfl | rfl <;> rfl
  · intro i hi
    simp only [tensorMach, List.mem_singleton] at hi
    simp [tensorMach, hi]
  · simp [tensorWiring, wiring2]
  · intro t l i hi
    exact (hp t l).mem_iff.mp hi
  · intro j i _ s hs; cases hs
  · intro g hg; cases hg

theorem tensor_legal (lom : Lom8) {N D M L : Nat} (c : Cfg N L) (d : Cfg D L) (e : Cfg M L) (X : Arr Int) :
    LegalWorld ⟨[0, 1, 2], lom.name, none, false, false⟩ 3 [N, D, M] X (tensorMach lom c d e X).world := by
  refine ⟨⟨L, ?_⟩, rfl, _, rfl⟩
  intro j f hf
  match j with
  | 0 =>
    simp only [List.map_cons, List.getElem?_cons_zero, Option.some.injEq] at hf
    subst hf
    exact ⟨rfl, Cfg.arr_pm c⟩
  | 1 =>
    simp only [List.map_cons, List.getElem?_cons_succ, List.getElem?_cons_zero, Option.some.injEq] at hf
    subst hf
    exact ⟨rfl, Cfg.arr_pm d⟩
  | 2 =>
    simp only [List.map_cons, List.getElem?_cons_succ, List.getElem?_cons_zero, Option.some.injEq] at hf
    subst hf
    exact ⟨rfl, Cfg.arr_pm e⟩
  | j + 3 => simp at hf

/-- the hypotheses of `C108_every_data_3d` hold for this machine, so that with these initial values it sees nothing of any data -/
theorem C108_every_data_3d_met (lom : Lom8) (N D M : Nat) {L : Nat} (hL : quietFrom3 lom ≤ L) :
    ∃ (c : Cfg N L) (d : Cfg D L) (e : Cfg M L), ∀ (X : Arr Int) (_ : X.shape = [N, D, M]) (rnd : Nat → Nat → Rnd)
      (perm : Nat → List Nat → List Nat) (_ : ∀ t l, (perm t l).Perm l),
      freeMats (tensorMach lom c d e X) = [0, 1, 2] ∧
      SeesNothing (tensorWiring lom rnd perm) (tensorMach lom c d e X) 50 15 0.005 30 2000 10 0 := by
  obtain ⟨c, d, e, h⟩ := C108_every_data_3d lom N D M hL
  refine ⟨c, d, e, fun X hX rnd perm hp => ⟨?_, ?_⟩⟩
  · rw [(tensor_single lom c d e X rnd perm hp).free_eq]
    simp [tensorMach]
  · exact h (tensor_single lom c d e X rnd perm hp) hX (tensor_legal lom c d e X) rfl rfl hp (fun i _ => ⟨rfl, fun s hs => by cases hs⟩)
      rfl 50 15 30 0.005 2000 10 0 (.inl rfl) (by norm_num) (by norm_num) (by norm_num) (by decide)

/-- **C104** fails with the default prior for *every* data matrix if there are enough latent dimensions: neither samples nor averages of
machines of this kind that calls have built converge, whatever the model and lambda. -/
theorem C104_quiet {h : Hier} {s : Workshop} {num : Equiv.Perm Nat} (hb : Built s) (H : h.Legal) (D : h.Describes s num) (C : FixedCall s)
    {lr : LayerInfo} {X : Arr Int} {N Dd L : Nat} (P : PlainLayer s lr X N Dd L) (hN : 1 ≤ N) (hD : 1 ≤ Dd) {model : Lom8}
    (hmod : lr.model = model.name) (hL : quietFrom2 model ≤ L) (dr : LFM.Draws) (st0 : h.State) :
    ¬ h.SamplesConvergeOf num s dr st0 ∧ ¬ h.AveragesConvergeOf num s dr st0 := by
  have hL1 : 1 ≤ L := le_trans (by cases model <;> decide) hL
  obtain ⟨q0, q1, hq⟩ := plain_sites H D P hN hD hL1
  obtain ⟨k, hk, hv, hm, hlb, rfl, rfl, rfl, rfl, hp, hfree⟩ := plain_hier H D P
  have hF : Spec.Hier.FreeEntry num s = fun _ : h.Site => True := funext fun q => eq_true (hfree q)
  have hs := D.sampled (num := num) hb.sound
  have hm' : k.model = model := by
    rw [hmod] at hm
    revert hm
    cases k.model <;> cases model <;> decide
  have hL' : Spec.Hier.quietFrom k ≤ h.cols k.z := by
    rw [Spec.Hier.quietFrom, if_pos hv, hm']
    exact hL
  rw [Spec.Hier.samples_ren hb D, Spec.Hier.averages_ren hb D, hF]
  exact ⟨C79_quiet H hk hp hL' (D.wired hb.sound hb.neat dr) (D.fixedLbdas hb.sound C dr) _
      (fun q => (hs q).1 (hfree q)) q0 st0,
    C80_quiet H hk hp hL' (D.wired hb.sound hb.neat dr) (D.fixedLbdas hb.sound C dr) _
      (fun q => (hs q).1 (hfree q)) hq st0⟩

/-- a case of `C79_quiet` and `C80_quiet`: OR-AND with the default prior, 2 x 2 data and 6 latent dimensions -/
theorem C79_quiet_hypotheses_met : ∃ (h : Hier) (k : HLayer) (q0 q1 : h.Site), h.Legal ∧ h.layers = [k] ∧ (∀ i < h.M, h.prior i = 1 / 2) ∧
    Spec.Hier.quietFrom k ≤ h.cols k.z ∧ q0 ≠ q1 ∧ h.rows k.z = 2 := by
  refine ⟨plainHier .OR_AND 2 2 6 (Arr.full [2, 2] 1) 1, ⟨.OR_AND, 0, 1, 2, 1, none⟩, ⟨⟨0, by simp [plainHier]⟩, ⟨0, by simp [plainHier]⟩, ⟨0, by simp [plainHier]⟩⟩,
    ⟨⟨1, by simp [plainHier]⟩, ⟨0, by simp [plainHier]⟩, ⟨0, by simp [plainHier]⟩⟩,
    plainHier_legal _ _ _ (by norm_num) (by norm_num) rfl ?_, rfl, fun _ _ => rfl, ?_, ?_, rfl⟩
  · intro i _
    exact Or.inl rfl
  · decide
  · intro h
    injection h with h1
    exact absurd (congrArg Fin.val h1) (by norm_num)

end LFM
