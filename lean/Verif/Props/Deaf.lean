import Verif.Lemmas.Deaf
import Verif.Props.Unheard

/-!
# C108: samples of models with inner operator NAND need not depend on the data
-/

namespace LFM

open Spec

/-- rows of such factors have enough entries -1 -/
theorem rowNegative_signed {k : Nat} {fs : List (Fac × Bool)} (hd : Deaf k fs) {G : Fac × Bool} (hG : G ∈ fs) {D L : Nat}
    (hs : G.1.val.shape = [D, L]) {τ : Int} (hτ : SignOf G.2 τ) {d : Nat} (hdD : d < D) : RowNegative k L (signedRow G.1 τ d) := by
  have := hd G hG ⟨G.1.val.shape, fun idx => if G.1.fixed_entries idx = 1 then G.1.val idx else τ * G.1.val idx⟩ (by
    rcases hτ with rfl | ⟨h, rfl⟩
    · have e : (⟨G.1.val.shape, fun idx => if G.1.fixed_entries idx = 1 then G.1.val idx else 1 * G.1.val idx⟩ : Arr Int) = G.1.val := by
        simp
      rw [e]
      split
      · rfl
      · exact ⟨1, .inl rfl, rfl, fun idx _ => by split <;> simp⟩
    · simp only [h, Bool.false_eq_true, if_false]
      exact ⟨-1, .inr rfl, rfl, fun idx _ => rfl⟩)
  exact manyNegative_row this hs hdD

/-- no entry of such factors has an effect on any prediction -/
theorem Spec.Deaf.unheard {lom : Lom8} {k : Nat} (hlom : NandModel lom k) {fs : List (Fac × Bool)} (hd : Deaf k fs) {L : Nat}
    (hs : ∀ F ∈ fs, ∃ D, F.1.val.shape = [D, L]) (h : fs.length = 2 ∨ fs.length = 3) : Unheard lom fs := by
  have hdim : ∀ F ∈ fs, F.1.val.dim 1 = L := fun F hF => by
    obtain ⟨D, hD⟩ := hs F hF
    simp [Arr.dim, hD]
  have two : ∀ F, ∀ G ∈ fs, Unheard2 lom L F G := by
    intro F G hG _ σ τ _ hτ n _ d hdd l _ _
    obtain ⟨D, hD⟩ := hs G hG
    have hr := rowNegative_signed hd hG hD hτ (d := d) (by simpa [Arr.dim, hD] using hdd)
    rw [pred2_nand hlom _ _ hr, pred2_nand hlom _ _ hr]
  have three : ∀ F H, ∀ G ∈ fs, Unheard3 lom L F G H := by
    intro F H G hG _ σ τ ρ _ hτ _ n _ d hdd e _ l _ _
    obtain ⟨D, hD⟩ := hs G hG
    have hr := rowNegative_signed hd hG hD hτ (d := d) (by simpa [Arr.dim, hD] using hdd)
    rw [pred3_nand hlom _ _ _ hr, pred3_nand hlom _ _ _ hr]
  match fs, h with
  | [F, G], _ =>
    refine ⟨?_, ?_⟩
    · rw [hdim F (by simp)]; exact two F G (by simp)
    · rw [hdim G (by simp)]; exact two G F (by simp)
  | [F, G, K], _ =>
    refine ⟨?_, ?_, ?_⟩
    · rw [hdim F (by simp)]; exact three F K G (by simp)
    · rw [hdim G (by simp)]; exact three G K F (by simp)
    · rw [hdim K (by simp)]; exact three K G F (by simp)

theorem SingleLayer.deaf_unheard {wr : Wiring} {m : Mach Sampler LbdaUpdate} {lom : Lom8} {k0 : Nat} (hlom : NandModel lom k0)
    {lr : LayerInfo} {x : Nat} {sizes : List Nat} (H : SingleLayer wr m lom lr x sizes) {X : Arr Int}
    (hw : LegalWorld lr x sizes X m.world) (hd : Deaf k0 (lr.factors.map fun i => (m.world.mat i, m.fixed i))) :
    Unheard lom (lr.factors.map fun i => (m.world.mat i, m.fixed i)) := by
  obtain ⟨L, hL⟩ := hw.facs
  refine hd.unheard hlom (L := L) ?_ (by simpa using H.arity)
  intro F hF
  obtain ⟨i, hi, rfl⟩ := List.mem_map.1 hF
  exact ⟨_, (hL (lr.factors.idxOf i) (m.world.mat i) (by rw [List.getElem?_map, (H.position hi).1]; rfl)).1⟩

/-- **C108** is false: let a machine with a single layer of the models OR-NAND or XOR-NAND with two or three factors
and priors 1/2 (also at earlier inferences, if any) have factors every row of which has at least one (XOR-NAND: two) entries
of either sign. Then inference returns, and *whatever the data, whatever lambda (fixed or learned, annealed or not) and whatever
is drawn*, in every sample each sampled factor is what it was at the start up to a single sign for all its free entries, which
changes from each sample to the next. -/
theorem C108_stuck {wr : Wiring} {m : Mach Sampler LbdaUpdate} {lom : Lom8} {k0 : Nat} (hlom : NandModel lom k0) {lr : LayerInfo} {x : Nat}
    {sizes : List Nat} (H : SingleLayer wr m lom lr x sizes) {X : Arr Int} (hX : X.shape = sizes)
    (hw : LegalWorld lr x sizes X m.world) (hc : lr.auto_clean = false) (hr : lr.auto_reset = false)
    (hperm : ∀ t l, (wr.perm t l).Perm l)
    (hprior : ∀ i ∈ freeMats m, m.bernoulli_prior i = 1 / 2 ∧ ∀ s, m.fct i = some s → ∃ f o, s = .lom f o (logit (1 / 2)))
    (hd : Deaf k0 (lr.factors.map fun i => (m.world.mat i, m.fixed i)))
    (S cw bmin : Nat) (eps : ℝ) (bmax : Int) (ps fx : Nat) (ha : CanAnneal m fx) (hcw : 1 ≤ cw) (hps : 1 ≤ ps) :
    ∃ m', infer (genericEnv wr) S cw eps bmin bmax ps fx m = .ok m' ∧
      ∀ i ∈ freeMats m, ∃ tr σ, m'.trace i = some tr ∧ tr.shape = S :: (m.world.mat i).val.shape ∧ IsPM σ ∧
        (∀ t < S, MirrorOf (m.world.mat i) (σ * (-1) ^ t) ⟨(m.world.mat i).val.shape, fun idx => tr (t :: idx)⟩) ∧
        ∃ τ, IsPM τ ∧ MirrorOf (m.world.mat i) τ (m'.world.mat i).val :=
  C108_unheard H hX hw hc hr hperm hprior (H.deaf_unheard hlom hw hd) S cw bmin eps bmax ps fx ha hcw hps

/-- **C108** is false, what the user sees: under the hypotheses of `C108_stuck`, for every even number of samples the mean of the
samples of every free entry of every sampled factor is 0 and `set_to_map` sets it to -1: whatever the data, lambda and draws. -/
theorem C108_stuck_mean {wr : Wiring} {m : Mach Sampler LbdaUpdate} {lom : Lom8} {k0 : Nat} (hlom : NandModel lom k0) {lr : LayerInfo}
    {x : Nat} {sizes : List Nat} (H : SingleLayer wr m lom lr x sizes) {X : Arr Int} (hX : X.shape = sizes)
    (hw : LegalWorld lr x sizes X m.world) (hc : lr.auto_clean = false) (hr : lr.auto_reset = false)
    (hperm : ∀ t l, (wr.perm t l).Perm l)
    (hprior : ∀ i ∈ freeMats m, m.bernoulli_prior i = 1 / 2 ∧ ∀ s, m.fct i = some s → ∃ f o, s = .lom f o (logit (1 / 2)))
    (hd : Deaf k0 (lr.factors.map fun i => (m.world.mat i, m.fixed i)))
    (S cw bmin : Nat) (eps : ℝ) (bmax : Int) (ps fx : Nat) (ha : CanAnneal m fx) (hcw : 1 ≤ cw) (hps : 1 ≤ ps) (hS : 0 < S) (hev : Even S) :
    ∃ m', infer (genericEnv wr) S cw eps bmin bmax ps fx m = .ok m' ∧
      ∀ i ∈ freeMats m, ∃ a, (m'.ofac i).mean = .nums a ∧ a.shape = (m.world.mat i).val.shape ∧
        ∀ idx, InB (m.world.mat i).val.shape idx → (m.world.mat i).fixed_entries idx ≠ 1 →
          a idx = 0 ∧ (m'.ofac i).set_to_map.val idx = -1 :=
  C108_unheard_mean H hX hw hc hr hperm hprior (H.deaf_unheard hlom hw hd) S cw bmin eps bmax ps fx ha hcw hps hS hev

/-- **C108**, predictions: if every row of the second of two factors has enough entries -1, as in all the samples of `C108_stuck`, then
all cells are predicted to be true by OR-NAND and false by XOR-NAND, whatever the first factor is -/
theorem C108_constant {lom : Lom8} {k0 : Nat} (hlom : NandModel lom k0) {A B : Arr Int} {D L : Nat} (hB : B.shape = [D, L])
    (hd : ManyNegative k0 B) (n : Nat) (d : Nat) (hdD : d < D) :
    pred2 lom L (fun l => A [n, l]) (fun l => B [d, l]) = pm (lom = .OR_NAND) :=
  pred2_nand hlom _ _ (manyNegative_row hd hB hdD)

/-! ## How likely a start of this kind is -/

/-- every row has at least `k` entries of either sign -/
def BothSigns (k : Nat) {N L : Nat} (c : Cfg N L) : Prop :=
  ∀ n : Fin N, ∀ b : Bool, ∃ s : Finset (Fin L), k ≤ s.card ∧ ∀ l ∈ s, c (n, l) = b

/-- factors without fixed entries whose rows have both signs meet the hypothesis of `C108_stuck` -/
theorem deaf_of_bothSigns {k : Nat} {N L : Nat} (c : Cfg N L) (hc : BothSigns k c) (A : Arr Int) {fe : Arr Int}
    (hfe : ∀ idx, fe idx ≠ 1) (hA : ∃ σ, IsPM σ ∧ MirrorOf ⟨c.arr, fe⟩ σ A) : ManyNegative k A := by
  obtain ⟨σ, hσ, h1, h2⟩ := hA
  have hsh : A.shape = [N, L] := h1
  have d0 : A.dim 0 = N := by simp [Arr.dim, hsh]
  have d1 : A.dim 1 = L := by simp [Arr.dim, hsh]
  intro n hn
  rw [d0] at hn
  rw [d1]
  obtain ⟨s, hs1, hs2⟩ := hc ⟨n, hn⟩ (if σ = 1 then false else true)
  refine ⟨s, hs1, fun l hl => ?_⟩
  have e := h2 [n, l] ⟨hn, l.2, trivial⟩
  simp only [hfe, if_false] at e
  rw [e]
  have e2 : c.arr [n, l] = sgn (c (⟨n, hn⟩, l)) := by
    show Cfg.fac c n l = _
    unfold Cfg.fac
    rw [dif_pos ⟨hn, l.2⟩]
  have e3 : (⟨c.arr, fe⟩ : Fac).val [n, l] = c.arr [n, l] := rfl
  rw [e3, e2, hs2 l hl]
  rcases hσ with rfl | rfl <;> simp [sgn]

/-- one row -/
theorem card_row {N L : Nat} (n : Fin N) (r : Fin L → Bool) :
    (Finset.univ.filter fun c : Cfg N L => ∀ l, c (n, l) = r l).card * 2 ^ L ≤ Fintype.card (Cfg N L) := by
  classical
  have : (Finset.univ.filter fun c : Cfg N L => ∀ l, c (n, l) = r l).card * 2 ^ L =
      ((Finset.univ.filter fun c : Cfg N L => ∀ l, c (n, l) = r l) ×ˢ (Finset.univ : Finset (Fin L → Bool))).card := by
    rw [Finset.card_product, Finset.card_univ, Fintype.card_fun]
    simp
  rw [this]
  refine Finset.card_le_card_of_injOn (fun p : Cfg N L × (Fin L → Bool) => fun e => if e.1 = n then p.2 e.2 else p.1 e)
    (fun _ _ => Finset.mem_univ _) ?_
  rintro ⟨c, a⟩ hc ⟨c', a'⟩ hc' he
  rw [Finset.mem_coe, Finset.mem_product, Finset.mem_filter] at hc hc'
  have hc1 := hc.1.2
  have hc2 := hc'.1.2
  simp only at hc1 hc2 he
  have ha : a = a' := by
    funext l
    have := congrFun he (n, l)
    simpa using this
  have hcc : c = c' := by
    funext e
    by_cases h : e.1 = n
    · have : e = (n, e.2) := by rw [← h]
      rw [this, hc1, hc2]
    · have := congrFun he e
      simpa [h] using this
  rw [ha, hcc]

open Classical in
/-- a factor without constant rows is very likely -/
theorem card_not_bothSigns (N L : Nat) : (Finset.univ.filter fun c : Cfg N L => ¬ BothSigns 1 c).card * 2 ^ L ≤
    2 * N * Fintype.card (Cfg N L) := by
  have hsub : (Finset.univ.filter fun c : Cfg N L => ¬ BothSigns 1 c) ⊆
      Finset.univ.biUnion fun p : Fin N × Bool => Finset.univ.filter fun c : Cfg N L => ∀ l, c (p.1, l) = p.2 := by
    intro c hc
    have hc' := (Finset.mem_filter.1 hc).2
    unfold BothSigns at hc'
    push Not at hc'
    obtain ⟨n, b, h⟩ := hc'
    rw [Finset.mem_biUnion]
    refine ⟨(n, !b), Finset.mem_univ _, Finset.mem_filter.2 ⟨Finset.mem_univ _, fun l => ?_⟩⟩
    obtain ⟨l', hl', hne⟩ := h {l} (by simp)
    rw [Finset.mem_singleton] at hl'
    subst hl'
    revert hne
    cases c (n, l') <;> cases b <;> simp
  calc _ ≤ (Finset.univ.biUnion fun p : Fin N × Bool => Finset.univ.filter fun c : Cfg N L => ∀ l, c (p.1, l) = p.2).card * 2 ^ L :=
        Nat.mul_le_mul_right _ (Finset.card_le_card hsub)
    _ ≤ (∑ p : Fin N × Bool, (Finset.univ.filter fun c : Cfg N L => ∀ l, c (p.1, l) = p.2).card) * 2 ^ L :=
        Nat.mul_le_mul_right _ Finset.card_biUnion_le
    _ = ∑ p : Fin N × Bool, (Finset.univ.filter fun c : Cfg N L => ∀ l, c (p.1, l) = p.2).card * 2 ^ L := by rw [Finset.sum_mul]
    _ ≤ ∑ _p : Fin N × Bool, Fintype.card (Cfg N L) := Finset.sum_le_sum fun p _ => card_row p.1 fun _ => p.2
    _ = 2 * N * Fintype.card (Cfg N L) := by
        rw [Finset.sum_const, Finset.card_univ, Fintype.card_prod, Fintype.card_fin, Fintype.card_bool, smul_eq_mul]
        ring

open Classical in
/-- **C108**, how often it happens: if all initial values of two factors with `L` latent dimensions are equally likely, as they are by
default, then inference with OR-NAND is stuck with probability at least `1 - (N + D) / 2 ^ (L - 1)` -/
theorem C108_random_start (N D L : Nat) :
    (Finset.univ.filter fun c : Cfg N L × Cfg D L => ¬ (BothSigns 1 c.1 ∧ BothSigns 1 c.2)).card * 2 ^ L ≤
      2 * (N + D) * Fintype.card (Cfg N L × Cfg D L) := by
  have hsub : (Finset.univ.filter fun c : Cfg N L × Cfg D L => ¬ (BothSigns 1 c.1 ∧ BothSigns 1 c.2)) ⊆
      ((Finset.univ.filter fun c : Cfg N L => ¬ BothSigns 1 c) ×ˢ Finset.univ) ∪
        (Finset.univ ×ˢ (Finset.univ.filter fun c : Cfg D L => ¬ BothSigns 1 c)) := by
    intro c hc
    have hc' := (Finset.mem_filter.1 hc).2
    simp only [Finset.mem_union, Finset.mem_product, Finset.mem_filter, Finset.mem_univ, true_and, and_true]
    tauto
  have h1 := card_not_bothSigns N L
  have h2 := card_not_bothSigns D L
  have hle := (Finset.card_le_card hsub).trans (Finset.card_union_le _ _)
  rw [Finset.card_product, Finset.card_product, Finset.card_univ, Finset.card_univ] at hle
  rw [Fintype.card_prod]
  calc (Finset.univ.filter fun c : Cfg N L × Cfg D L => ¬ (BothSigns 1 c.1 ∧ BothSigns 1 c.2)).card * 2 ^ L
      ≤ ((Finset.univ.filter fun c : Cfg N L => ¬ BothSigns 1 c).card * Fintype.card (Cfg D L) +
          Fintype.card (Cfg N L) * (Finset.univ.filter fun c : Cfg D L => ¬ BothSigns 1 c).card) * 2 ^ L := Nat.mul_le_mul_right _ hle
    _ = (Finset.univ.filter fun c : Cfg N L => ¬ BothSigns 1 c).card * 2 ^ L * Fintype.card (Cfg D L) +
        Fintype.card (Cfg N L) * ((Finset.univ.filter fun c : Cfg D L => ¬ BothSigns 1 c).card * 2 ^ L) := by ring
    _ ≤ 2 * N * Fintype.card (Cfg N L) * Fintype.card (Cfg D L) + Fintype.card (Cfg N L) * (2 * D * Fintype.card (Cfg D L)) :=
        Nat.add_le_add (Nat.mul_le_mul_right _ h1) (Nat.mul_le_mul_left _ h2)
    _ = 2 * (N + D) * (Fintype.card (Cfg N L) * Fintype.card (Cfg D L)) := by ring

/-! ## The hypotheses are met -/

/-- an OR-NAND layer -/
def deafLayer : LayerInfo := ⟨[0, 1], "OR-NAND", none, false, false⟩

/-- factors `c` and `d`, data `X`, initial lambda 0.05 as `add_layer` sets it -/
noncomputable def deafWorld {N D L : Nat} (c : Cfg N L) (d : Cfg D L) (X : Arr Int) : World where
  mat i := if i = 0 then ⟨c.arr, Arr.full [N, L] 0⟩ else if i = 1 then ⟨d.arr, Arr.full [D, L] 0⟩ else ⟨X, Arr.full [N, D] 0⟩
  lbda _ := .scalar (.fin (5 / 100))

/-- attributes of this machine -/
noncomputable def deafWiring (rnd : Nat → Nat → Rnd) (perm : Nat → List Nat → List Nat) : Wiring :=
  { wiring2 false false rnd perm with layers := [deafLayer] }

/-- this machine before inference -/
noncomputable def deafMach {N D L : Nat} (c : Cfg N L) (d : Cfg D L) (X : Arr Int) : Mach Sampler LbdaUpdate :=
  { mach2 false false [] with layers := [deafLayer], world := deafWorld c d X }

/-- **C108** for the default machine of two factors: an OR-NAND layer of any sizes, any data, all initial values of the factors of which
`C108_random_start` says that they are likely, and whatever is drawn. With the default arguments of `infer` the mean of the 50 samples of
every entry of both factors is 0. -/
theorem C108_hypotheses_met {N D L : Nat} (c : Cfg N L) (d : Cfg D L) (hc : BothSigns 1 c) (hd : BothSigns 1 d) (X : Arr Int)
    (hX : X.shape = [N, D]) (rnd : Nat → Nat → Rnd) (perm : Nat → List Nat → List Nat) (hp : ∀ t l, (perm t l).Perm l) :
    SingleLayer (deafWiring rnd perm) (deafMach c d X) .OR_NAND deafLayer 2 [N, D] ∧
    LegalWorld deafLayer 2 [N, D] X (deafMach c d X).world ∧
    Deaf 1 (deafLayer.factors.map fun i => ((deafMach c d X).world.mat i, (deafMach c d X).fixed i)) ∧
    ∃ m', infer (genericEnv (deafWiring rnd perm)) 50 15 0.005 30 2000 10 0 (deafMach c d X) = .ok m' ∧
      (∃ a, (m'.ofac 0).mean = .nums a ∧ a.shape = [N, L] ∧ ∀ n < N, ∀ l < L, a [n, l] = 0) ∧
      ∃ a, (m'.ofac 1).mean = .nums a ∧ a.shape = [D, L] ∧ ∀ n < D, ∀ l < L, a [n, l] = 0 := by
  have hS : SingleLayer (deafWiring rnd perm) (deafMach c d X) .OR_NAND deafLayer 2 [N, D] := by
    refine ⟨rfl, rfl, rfl, rfl, by simp [deafLayer], Or.inl rfl, ?_, ?_, ?_, rfl, by simp [deafLayer], ?_, ?_, ?_, rfl, ?_, ?_⟩
    · intro j i h
      match j with
      | 0 => simp only [deafLayer, List.getElem?_cons_zero, Option.some.injEq] at h; exact h.symm
      | 1 => simp only [deafLayer, List.getElem?_cons_succ, List.getElem?_cons_zero, Option.some.injEq] at h; exact h.symm
      | j + 2 => simp [deafLayer] at h
    · intro i hi
      simp only [deafLayer, List.mem_cons, List.not_mem_nil, or_false] at hi
      rcases hi with rfl | rfl <;> rfl
    · intro i hi
      simp only [deafLayer, List.mem_cons, List.not_mem_nil, or_false] at hi
      rcases hi with rfl | rfl <;> rfl
    · intro i hi
      simp only [deafMach, mach2, List.mem_singleton] at hi
      simp [deafMach, mach2, hi]
    · simp [deafWiring, wiring2]
    · intro t l i hi
      exact (hp t l).mem_iff.mp hi
    · intro j i _ s hs; cases hs
    · intro g hg; cases hg
  have hL : LegalWorld deafLayer 2 [N, D] X (deafMach c d X).world := by
    refine ⟨⟨L, ?_⟩, rfl, _, rfl⟩
    intro j f hf
    match j with
    | 0 =>
      simp only [deafLayer, List.map_cons, List.getElem?_cons_zero, Option.some.injEq] at hf
      subst hf
      exact ⟨rfl, Cfg.arr_pm c⟩
    | 1 =>
      simp only [deafLayer, List.map_cons, List.getElem?_cons_succ, List.getElem?_cons_zero, Option.some.injEq] at hf
      subst hf
      exact ⟨rfl, Cfg.arr_pm d⟩
    | j + 2 => simp [deafLayer] at hf
  have hA : Deaf 1 (deafLayer.factors.map fun i => ((deafMach c d X).world.mat i, (deafMach c d X).fixed i)) := by
    intro F hF A hA
    simp only [deafLayer, List.map_cons, List.map_nil, List.mem_cons, List.not_mem_nil, or_false] at hF
    rcases hF with rfl | rfl
    · exact deaf_of_bothSigns c hc A (fe := Arr.full [N, L] 0) (fun _ => by simp [Arr.full]) hA
    · exact deaf_of_bothSigns d hd A (fe := Arr.full [D, L] 0) (fun _ => by simp [Arr.full]) hA
  refine ⟨hS, hL, hA, ?_⟩
  obtain ⟨m', h1, h2⟩ := C108_stuck_mean (.inl ⟨rfl, rfl⟩) hS hX hL rfl rfl hp (fun i _ => ⟨rfl, fun s hs => by cases hs⟩) hA 50 15 30 0.005
    2000 10 0 (.inl rfl) (by norm_num) (by norm_num) (by norm_num) (by decide)
  refine ⟨m', h1, ?_, ?_⟩
  · obtain ⟨a, a1, a2, a3⟩ := h2 0 (List.mem_cons_self ..)
    exact ⟨a, a1, a2, fun n hn l hl => (a3 [n, l] ⟨hn, hl, trivial⟩ (by simp [deafMach, deafWorld, Arr.full])).1⟩
  · obtain ⟨a, a1, a2, a3⟩ := h2 1 (List.mem_cons_of_mem _ (List.mem_cons_self ..))
    exact ⟨a, a1, a2, fun n hn l hl => (a3 [n, l] ⟨hn, hl, trivial⟩ (by simp [deafMach, deafWorld, Arr.full])).1⟩

/-- rows of one entry 1 and one entry -1 have both signs -/
theorem C108_bothSigns_met (N : Nat) : BothSigns 1 (fun e : Fin N × Fin 2 => decide (e.2 = 0)) := by
  intro n b
  exact ⟨{if b then 0 else 1}, by simp, by cases b <;> simp⟩

end LFM
