import Verif.Props.PredictBuilt

/-!
# C106: factors that are fixed after they have been sampled
-/

namespace LFM

open Spec

/-- `mat.val = v; mat.fixed = True` -/
noncomputable def Workshop.fixAt (s : Workshop) (i : Nat) (v : Arr Int) : Workshop :=
  let s' := s.setVal i v
  { s' with m := { s'.m with fixed := upd s'.m.fixed i true } }

theorem fixAt_built {s : Workshop} (h : Built s) {i : Nat} {v : Arr Int} (hv : v.shape = (s.m.world.mat i).val.shape)
    (hp : PMArr v) : Built (s.fixAt i v) :=
  .act (.setFixed i true) (.act (.setVal i v) h ⟨hv, fun _ => hp⟩ rfl) trivial rfl

theorem mean_congr {m m' : Mach Sampler LbdaUpdate} {i : Nat} (h : m'.trace i = m.trace i) {tr : Arr Int}
    (ht : m.trace i = some tr) (hd : 1 ≤ tr.dim 0) : (m'.ofac i).mean = (m.ofac i).mean := by
  have e1 : (m.ofac i).trace = some (samplesOf tr) := by rw [Mach.ofac, ht]; rfl
  have e2 : (m'.ofac i).trace = some (samplesOf tr) := by rw [Mach.ofac, h, ht]; rfl
  have hne : samplesOf tr ≠ [] := by
    intro hc
    have := samplesOf_length tr
    rw [hc] at this
    simp at this
    omega
  obtain ⟨a, as, e⟩ := List.exists_cons_of_ne_nil hne
  rw [OFac.mean, OFac.mean, e1, e2, e]

/-- **C106** is false in general: a factor that has been sampled in one inference, and is then set to `v` and fixed, keeps
`v` in further inferences, but its posterior mean stays that of the old samples, whatever `v` is. -/
theorem C106_mean_of_old_samples {s s1 s2 : Workshop} (h : Built s) (S cw : Nat) (eps : ℝ) (bmin : Nat) (bmax : Int)
    (ps fx : Nat) (dr : Draws) (hc : CallOK s cw ps fx dr) (hs : s.infer S cw eps bmin bmax ps fx dr = .ok s1) (hS : 1 ≤ S)
    (k : Nat) (lr : LayerInfo) (hk : s.m.layers[k]? = some lr) (hcl : ¬ lr.Cleans) (i : Nat) (hi : i ∈ lr.factors)
    (hfree : s.m.fixed i = false) (v : Arr Int) (hv : v.shape = (s1.m.world.mat i).val.shape) (hp : PMArr v)
    (S' cw' : Nat) (eps' : ℝ) (bmin' : Nat) (bmax' : Int) (ps' fx' : Nat) (dr' : Draws)
    (hc' : CallOK (s1.fixAt i v) cw' ps' fx' dr')
    (hs' : (s1.fixAt i v).infer S' cw' eps' bmin' bmax' ps' fx' dr' = .ok s2) :
    (s2.m.world.mat i).val = v ∧ (s2.m.ofac i).mean = (s1.m.ofac i).mean := by
  have hb1 : Built s1 := .act (.infer S cw eps bmin bmax ps fx dr) h hc hs
  have hb2 := fixAt_built hb1 hv hp
  obtain ⟨-, -, -, c4, -, c6, -⟩ := C102_after_infer h S cw eps bmin bmax ps fx dr hc hs
  obtain ⟨-, -, d3, -⟩ := C102_after_infer hb2 S' cw' eps' bmin' bmax' ps' fx' dr' hc' hs'
  have hk1 : (s1.fixAt i v).m.layers[k]? = some lr := by
    show s1.m.layers[k]? = _
    rw [c6]; exact hk
  have hf1 : (s1.fixAt i v).m.fixed i = true := by simp [Workshop.fixAt, upd]
  constructor
  · rw [(d3 k lr i hk1 hcl hi).2.1 hf1]
    simp [Workshop.fixAt, Workshop.setVal, World.setVal, upd]
  · obtain ⟨tr, t1, t2, -⟩ := c4 i (h.sound.mem_free.2 ⟨hfree, .inr ⟨k, lr, hk, hi⟩⟩)
    refine mean_congr ?_ t1 (by rw [Arr.dim, t2]; exact hS)
    rw [(Workshop.infer_traces hc'.perm hs').1 i hf1]
    rfl

/-- **C106** is false: whatever machine and factor, there is a value such that, after the factor has been fixed at it and
inference has been run, the factor that predictions (`factor_map`) are made of is the opposite of that value in every entry. -/
theorem C106_wrong {s s1 : Workshop} (h : Built s) (S cw : Nat) (eps : ℝ) (bmin : Nat) (bmax : Int)
    (ps fx : Nat) (dr : Draws) (hc : CallOK s cw ps fx dr) (hs : s.infer S cw eps bmin bmax ps fx dr = .ok s1) (hS : 1 ≤ S)
    (k : Nat) (lr : LayerInfo) (hk : s.m.layers[k]? = some lr) (hcl : ¬ lr.Cleans) (i : Nat) (hi : i ∈ lr.factors)
    (hfree : s.m.fixed i = false) :
    ∃ v : Arr Int, v.shape = (s1.m.world.mat i).val.shape ∧ PMArr v ∧
      ∀ (s2 : Workshop) (S' cw' : Nat) (eps' : ℝ) (bmin' : Nat) (bmax' : Int) (ps' fx' : Nat) (dr' : Draws),
        CallOK (s1.fixAt i v) cw' ps' fx' dr' → (s1.fixAt i v).infer S' cw' eps' bmin' bmax' ps' fx' dr' = .ok s2 →
        (s2.m.world.mat i).val = v ∧ ∀ idx, (s2.m.ofac i).mean.sign idx = - v idx := by
  have hpm : PMArr ⟨(s1.m.world.mat i).val.shape, fun idx => - (s1.m.ofac i).mean.sign idx⟩ := by
    intro idx _
    show IsPM (-(s1.m.ofac i).mean.sign idx)
    cases hm : (s1.m.ofac i).mean with
    | nums a =>
      show IsPM (-(if 0 < a idx then (1 : Int) else -1))
      split
      · exact .inr rfl
      · exact .inl rfl
    | nans sh => exact .inl rfl
  refine ⟨⟨(s1.m.world.mat i).val.shape, fun idx => - (s1.m.ofac i).mean.sign idx⟩, rfl, hpm, ?_⟩
  intro s2 S' cw' eps' bmin' bmax' ps' fx' dr' hc' hs'
  obtain ⟨h1, h2⟩ := C106_mean_of_old_samples h S cw eps bmin bmax ps fx dr hc hs hS k lr hk hcl i hi hfree
    ⟨(s1.m.world.mat i).val.shape, fun idx => - (s1.m.ofac i).mean.sign idx⟩ rfl hpm S' cw'
    eps' bmin' bmax' ps' fx' dr' hc' hs'
  refine ⟨h1, fun idx => ?_⟩
  rw [h2]
  show _ = - - _
  rw [neg_neg]

/-- a step of a loop that fails makes the loop fail -/
theorem foldlM_error {α β : Type} {f : β → α → Except Err β} {e : α} (he : ∀ b, ∃ er, f b e = .error er) :
    ∀ (l : List α) (b : β), e ∈ l → ∃ er, l.foldlM f b = .error er := by
  intro l
  induction l with
  | nil => intro b h; simp at h
  | cons a l ih =>
    intro b h
    rw [List.foldlM_cons]
    cases hf : f b a with
    | error er => exact ⟨er, rfl⟩
    | ok b' =>
      rcases List.mem_cons.1 h with rfl | h
      · obtain ⟨er, her⟩ := he b
        rw [hf] at her; cases her
      · obtain ⟨er, her⟩ := ih b' h
        exact ⟨er, her⟩

theorem mapM_fails {α β : Type} {f : α → Except Err β} {a : α} {e : Err} (ha : f a = .error e) :
    ∀ l : List α, a ∈ l → ∃ er, l.mapM f = .error er := by
  intro l
  induction l with
  | nil => intro h; simp at h
  | cons b l ih =>
    intro h
    rw [List.mapM_cons]
    cases hf : f b with
    | error er => exact ⟨er, rfl⟩
    | ok b' =>
      rcases List.mem_cons.1 h with rfl | h
      · rw [ha] at hf; cases hf
      · obtain ⟨er, her⟩ := ih h
        exact ⟨er, by rw [her]; rfl⟩

/-- predictions from samples fail if a factor has fewer samples than lambda -/
theorem mc_few_samples (argsort : Arr ℝ → List Nat) (noisy mp : Bool) (o : OLayer) {S n : Nat} {f : OFac}
    (hm : o.model ≠ "MAX-AND" ∧ o.model ≠ "qL-AND") (hl : lbdaSamples o.lbda = some S) (hf : f ∈ o.factors)
    (hn : HasSamples n f) (hlt : n < S) : ∃ e, (output argsort "mc" noisy false mp o).1 = .error e := by
  obtain ⟨tr, h1, h2⟩ := hn
  have hgen : ∀ md, ∃ e, outputGeneric "mc" { o with model := md } = .error e := by
    intro md
    rw [outputGeneric, if_neg (by decide), if_neg (by decide), if_neg (by decide), if_neg (by decide), if_pos rfl]
    have ht : o.lbda.traceLen = lbdaSamples o.lbda := by cases o.lbda <;> rfl
    simp only [ht, hl]
    have htr : ∃ e, traceAt o.factors n = .error e := by
      unfold traceAt
      refine mapM_fails (a := f) (e := .indexError) ?_ _ hf
      rw [h1]
      have : tr[n]? = none := List.getElem?_eq_none (by omega)
      simp only [this]
    obtain ⟨e, he⟩ := foldlM_error (f := fun (out : Arr ℝ) t => do
        let fs ← traceAt o.factors t
        let m ← lom_generate_data_fast fs md
        addTo out (toReal m)) (e := n) (fun b => by
          obtain ⟨e, he⟩ := htr
          exact ⟨e, by rw [he]; rfl⟩) (List.range S) (zerosLike o.factors) (List.mem_range.2 hlt)
    exact ⟨e, by rw [he]; rfl⟩
  have hcomp : ∃ e, computeOutput argsort "mc" noisy (if o.model = "OR-AND-IBP" then { o with model := "OR-AND" } else o) =
      .error e := by
    by_cases hi : o.model = "OR-AND-IBP"
    · rw [if_pos hi, computeOutput, if_neg (by simp), if_neg (by simp)]
      obtain ⟨e, he⟩ := hgen "OR-AND"
      exact ⟨e, by rw [he]; rfl⟩
    · rw [if_neg hi, computeOutput, if_neg hm.1, if_neg hm.2]
      obtain ⟨e, he⟩ := hgen o.model
      exact ⟨e, by rw [show outputGeneric "mc" o = .error e from he]; rfl⟩
  obtain ⟨e, he⟩ := hcomp
  refine ⟨e, ?_⟩
  unfold output
  split
  · simp_all
  · simp only [he]

/-- **C106** is false, `mc`: if the new inference takes more samples than the one before the factor was fixed, predictions from
samples of its layer raise an exception. -/
theorem C106_mc_raises {s s1 s2 : Workshop} (h : Built s) (S cw : Nat) (eps : ℝ) (bmin : Nat) (bmax : Int)
    (ps fx : Nat) (dr : Draws) (hc : CallOK s cw ps fx dr) (hs : s.infer S cw eps bmin bmax ps fx dr = .ok s1)
    (k : Nat) (lr : LayerInfo) (hk : s.m.layers[k]? = some lr) (i : Nat) (hi : i ∈ lr.factors)
    (hfree : s.m.fixed i = false) (v : Arr Int) (hv : v.shape = (s1.m.world.mat i).val.shape) (hp : PMArr v)
    (S' cw' : Nat) (eps' : ℝ) (bmin' : Nat) (bmax' : Int) (ps' fx' : Nat) (dr' : Draws)
    (hc' : CallOK (s1.fixAt i v) cw' ps' fx' dr')
    (hs' : (s1.fixAt i v).infer S' cw' eps' bmin' bmax' ps' fx' dr' = .ok s2) (hlt : S < S') (hl : s.m.lfixed k = false)
    (pred : Option (Arr NpF)) : ∃ o, s2.m.olayer k pred = some o ∧
      ∀ argsort noisy mp, ∃ e, (output argsort "mc" noisy false mp o).1 = .error e := by
  have hb1 : Built s1 := .act (.infer S cw eps bmin bmax ps fx dr) h hc hs
  have hb2 := fixAt_built hb1 hv hp
  have hb3 : Built s2 := .act (.infer S' cw' eps' bmin' bmax' ps' fx' dr') hb2 hc' hs'
  obtain ⟨-, -, -, c4, -, c6, -, -, c9, -⟩ := C102_after_infer h S cw eps bmin bmax ps fx dr hc hs
  obtain ⟨-, -, -, -, d5, d6, -, -, -, -⟩ := C102_after_infer hb2 S' cw' eps' bmin' bmax' ps' fx' dr' hc' hs'
  have hklt : k < s.m.layers.length := (List.getElem?_eq_some_iff.1 hk).1
  have e1 : (s1.fixAt i v).m.layers = s.m.layers := c6
  have e2 : (s1.fixAt i v).m.lfixed = s.m.lfixed := c9
  obtain ⟨y, hy⟩ := hb3.sound.world.lbda k (by rw [d6, e1]; exact hklt)
  obtain ⟨tr, t1, t2, t3⟩ := d5 k (by simp [freeLbdas, e1, e2, hl, hklt])
  obtain ⟨xs, rfl, x2, x3⟩ := scalar_trace (by omega) t2 t3
  refine ⟨⟨lr.model, lr.factors.map s2.m.ofac, .scalar (.fin y) (some xs), ⟨[], fun _ => 0⟩, [], pred⟩, ?_, ?_⟩
  · have : s2.m.layers[k]? = some lr := by rw [d6, e1]; exact hk
    rw [Mach.olayer, Mach.olbda, hy, t1, this]
  · intro argsort noisy mp
    obtain ⟨lom, hlom⟩ := h.sound.model k lr hk
    obtain ⟨tr, t1, t2, -⟩ := c4 i (h.sound.mem_free.2 ⟨hfree, .inr ⟨k, lr, hk, hi⟩⟩)
    have hf1 : (s1.fixAt i v).m.fixed i = true := by simp [Workshop.fixAt, upd]
    have ht : s2.m.trace i = some tr := by
      rw [(Workshop.infer_traces hc'.perm hs').1 i hf1]
      exact t1
    refine mc_few_samples argsort noisy mp _ (S := S') (n := S) (f := s2.m.ofac i) ?_ ?_ (List.mem_map_of_mem hi)
      ⟨samplesOf tr, by rw [Mach.ofac, ht]; rfl, by rw [samplesOf_length, Arr.dim, t2]; rfl⟩ hlt
    · show lr.model ≠ _ ∧ lr.model ≠ _
      rw [hlom]
      cases lom <;> decide
    · simp [lbdaSamples, x2]

/-- **C106** (`_partial`: factors that have not been sampled before they were fixed). After inference the mean of a fixed factor is
its value, and so is the factor that predictions are made of. -/
theorem C106_fixed_before_partial {s s' : Workshop} (h : Built s) (S cw : Nat) (eps : ℝ) (bmin : Nat) (bmax : Int)
    (ps fx : Nat) (dr : Draws) (hc : CallOK s cw ps fx dr) (hs : s.infer S cw eps bmin bmax ps fx dr = .ok s')
    (k : Nat) (lr : LayerInfo) (hk : s.m.layers[k]? = some lr) (hcl : ¬ lr.Cleans) (i : Nat) (hi : i ∈ lr.factors)
    (hf : s.m.fixed i = true) (hn : s.m.trace i = none) :
    (s'.m.world.mat i).val = (s.m.world.mat i).val ∧ (s'.m.ofac i).mean = .nums (toReal (s.m.world.mat i).val) ∧
      ∀ idx, InB (s.m.world.mat i).val.shape idx → (s'.m.ofac i).mean.sign idx = (s.m.world.mat i).val idx := by
  obtain ⟨-, -, c3, -⟩ := C102_after_infer h S cw eps bmin bmax ps fx dr hc hs
  have e1 := (c3 k lr i hk hcl hi).2.1 hf
  have e2 : s'.m.trace i = none := by rw [(Workshop.infer_traces hc.perm hs).1 i hf, hn]
  have e3 : (s'.m.ofac i).mean = .nums (toReal (s.m.world.mat i).val) := by
    rw [Mach.ofac, e2, e1]
    rfl
  refine ⟨by rw [e1], e3, fun idx hidx => ?_⟩
  rw [e3]
  show (if (0 : ℝ) < (((s.m.world.mat i).val idx : Int) : ℝ) then (1 : Int) else -1) = _
  obtain ⟨L, hL⟩ := h.sound.world.facs k lr hk
  have hpm := (hL _ (s.m.world.mat i) (by rw [List.getElem?_map, (h.sound.position hi).1]; rfl)).2 idx hidx
  rcases hpm with h1 | h1 <;> rw [h1] <;> norm_num

/-- C106: there are such runs: a machine samples five times, its first factor is set to any value and fixed, and the machine
samples nine times. In the last clause the factor is fixed before the first inference. -/
theorem C106_hypotheses_met (v : Arr Int) (hv : v.shape = [3, 2]) (hp : PMArr v) :
    Built shop2 ∧ CallOK shop2 15 10 0 plainDraws ∧ shop2.m.fixed 1 = false ∧ shop2.m.lfixed 0 = false ∧
      (∃ s1, shop2.infer 5 15 0.001 10 100 10 0 plainDraws = .ok s1 ∧ v.shape = (s1.m.world.mat 1).val.shape ∧
        CallOK (s1.fixAt 1 v) 15 10 0 plainDraws ∧ ∃ s2, (s1.fixAt 1 v).infer 9 15 0.001 10 100 10 0 plainDraws = .ok s2) ∧
      CallOK (shop2.fixAt 1 v) 15 10 0 plainDraws ∧ (shop2.fixAt 1 v).m.fixed 1 = true ∧
      (shop2.fixAt 1 v).m.trace 1 = none ∧ ∃ s', (shop2.fixAt 1 v).infer 9 15 0.001 10 100 10 0 plainDraws = .ok s' := by
  have key : ∀ s : Workshop, Built s → s.m.layers = [⟨[1, 2], "XOR-AND", none, false, false⟩] → s.m.matrices = [0] →
      s.m.fixed 0 = true → s.m.anneal = false → ∀ S, CallOK s 15 10 0 plainDraws ∧
        ∃ s', s.infer S 15 0.001 10 100 10 0 plainDraws = .ok s' := by
    intro s hb hl hm hf ha S
    have hl' : ∀ (k : Nat) (lr : LayerInfo), s.m.layers[k]? = some lr → lr = ⟨[1, 2], "XOR-AND", none, false, false⟩ := by
      intro k lr hk
      rw [hl] at hk
      match k, hk with
      | 0, hk => cases hk; rfl
    have hc : CallOK s 15 10 0 plainDraws := callOK_plain ha fun k lr hk => by
      rw [hl' k lr hk]; simp [LayerInfo.Cleans]
    have hr : Ready s := ready_two hb hm hf fun k lr hk => by rw [hl' k lr hk]; rfl
    exact ⟨hc, (C102_infer_iff hb S 15 0.001 10 100 10 0 plainDraws hc).mpr hr⟩
  obtain ⟨hc, s1, hs1⟩ := key shop2 shop2_built rfl rfl rfl rfl 5
  have hb : Built s1 := .act (.infer 5 15 0.001 10 100 10 0 plainDraws) shop2_built hc hs1
  obtain ⟨-, -, c3, -, -, c6, c7, c8, c9, -⟩ := C102_after_infer shop2_built 5 15 0.001 10 100 10 0 plainDraws hc hs1
  have han : s1.m.anneal = shop2.m.anneal := by
    rw [Workshop.infer, bind_ok] at hs1
    obtain ⟨m', h1, h2⟩ := hs1
    rw [pure_ok] at h2
    rw [← h2]
    exact (infer_static shop2_built.sound.nodup_free (fun t i hi => hc.perm t _ i hi) h1).1.anneal
  have hsh : (s1.m.world.mat 1).val.shape = [3, 2] :=
    (c3 0 ⟨[1, 2], "XOR-AND", none, false, false⟩ 1 rfl (by simp [LayerInfo.Cleans]) (by simp)).1.trans rfl
  obtain ⟨hc1, s2, hs2⟩ := key (s1.fixAt 1 v) (fixAt_built hb (hv.trans hsh.symm) hp) (c6.trans rfl) (c7.trans rfl)
    (by show upd s1.m.fixed 1 true 0 = true; rw [c8]; rfl) (han.trans rfl) 9
  obtain ⟨hc2, s3, hs3⟩ := key (shop2.fixAt 1 v) (fixAt_built shop2_built (hv.trans rfl) hp) rfl rfl rfl rfl 9
  exact ⟨shop2_built, hc, rfl, rfl, ⟨s1, hs1, hv.trans hsh.symm, hc1, s2, hs2⟩, hc2, rfl, rfl, s3, hs3⟩

/-- C81 for machines that have been built: all techniques can be used, and with a factor that is fixed at any value before
the first inference all but `mc` -/
theorem C81_built_hypotheses_met (v : Arr Int) (hv : v.shape = [3, 2]) (hp : PMArr v) :
    ∃ lr : LayerInfo, lr.factors = [1, 2] ∧ ∀ s ∈ [shop2, shop2.fixAt 1 v], Built s ∧ CallOK s 15 10 0 plainDraws ∧
      s.m.layers[0]? = some lr ∧ (∀ i ∈ lr.factors, s.m.fixed i = true → s.m.trace i = none) ∧
      (s.m.lfixed 0 = true → s.m.ltrace 0 = none) ∧ (∃ s', s.infer 9 15 0.001 10 100 10 0 plainDraws = .ok s') ∧
      (∀ technique ∈ ["point_estimate", "factor_map", "factor_mean"], UsableIn s 0 lr technique) ∧
      UsableIn shop2 0 lr "mc" := by
  obtain ⟨h1, h2, h3, h4, ⟨s1, h5, -⟩, h6, h7, h8, h9⟩ := C106_hypotheses_met v hv hp
  have ht : ∀ i ∈ [1, 2], shop2.m.trace i = none := by
    intro i hi
    have : i = 1 ∨ i = 2 := by simpa using hi
    rcases this with rfl | rfl <;> rfl
  have hu : ∀ (s : Workshop), ∀ technique ∈ ["point_estimate", "factor_map", "factor_mean"],
      UsableIn s 0 ⟨[1, 2], "XOR-AND", none, false, false⟩ technique := by
    intro s technique ht
    simp only [List.mem_cons, List.not_mem_nil, or_false] at ht
    rcases ht with rfl | rfl | rfl
    · exact .inl rfl
    · exact .inr (.inl rfl)
    · exact .inr (.inr (.inl ⟨rfl, .inl rfl⟩))
  have hmc : UsableIn shop2 0 ⟨[1, 2], "XOR-AND", none, false, false⟩ "mc" := by
    refine .inr (.inr (.inr ⟨rfl, rfl, ?_⟩))
    intro i hi
    have : i = 1 ∨ i = 2 := by simpa using hi
    rcases this with rfl | rfl <;> rfl
  refine ⟨⟨[1, 2], "XOR-AND", none, false, false⟩, rfl, ?_⟩
  intro s hs
  simp only [List.mem_cons, List.not_mem_nil, or_false] at hs
  rcases hs with rfl | rfl
  · have hr : ∃ s', shop2.infer 9 15 0.001 10 100 10 0 plainDraws = .ok s' :=
      (C102_infer_iff h1 9 15 0.001 10 100 10 0 plainDraws h2).mpr
        ((C102_infer_iff h1 5 15 0.001 10 100 10 0 plainDraws h2).mp ⟨s1, h5⟩)
    exact ⟨h1, h2, rfl, fun i hi _ => ht i hi, fun _ => rfl, hr, hu _, hmc⟩
  · exact ⟨fixAt_built h1 (hv.trans rfl) hp, h6, rfl, fun i hi _ => ht i hi, fun _ => rfl, h9, hu _, hmc⟩

end LFM
