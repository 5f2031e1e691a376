import Verif.Lemmas.Unheard
import Verif.Props.Stuck

/-!
# C108: samples need not depend on the data
-/

namespace LFM

open Spec

/-- states in which every free factor is that of `m` up to signs -/
structure SameUpToSigns (m : Mach Sampler LbdaUpdate) (lr : LayerInfo) (x : Nat) (sizes : List Nat) (X : Arr Int) (σ : Nat → Int)
    (w : World) : Prop where
  legal : LegalWorld lr x sizes X w
  kept : Kept m lr w
  signs : ∀ i ∈ freeMats m, MirrorOf (m.world.mat i) (σ i) (w.mat i).val

namespace SingleLayer

variable {wr : Wiring} {m : Mach Sampler LbdaUpdate} {lom : Lom8} {lr : LayerInfo} {x : Nat} {sizes : List Nat}

/-- the rows of a factor -/
theorem row_signed (H : SingleLayer wr m lom lr x sizes) {X : Arr Int} (hc : lr.auto_clean = false) (hr : lr.auto_reset = false)
    {w : World} {σ : Nat → Int} (hσ : ∀ i, IsPM (σ i)) (hw : SameUpToSigns m lr x sizes X σ w) {j : Nat} (hj : j ∈ lr.factors) :
    ∃ τ, SignOf (m.fixed j) τ ∧ ∀ d l, InB (m.world.mat j).val.shape [d, l] →
      (w.mat j).val [d, l] = signedRow (m.world.mat j) τ d l := by
  by_cases hfx : m.fixed j = true
  · refine ⟨1, .inl rfl, fun d l _ => ?_⟩
    rw [(hw.kept.fixed hc hr j).2.2.2 (by rw [H.free_eq]; simp [hfx])]
    simp [signedRow]
  · have : j ∈ freeMats m := by rw [H.free_eq]; simp [hj, hfx]
    refine ⟨σ j, ?_, fun d l h => (hw.signs j this).2 [d, l] h⟩
    rcases hσ j with h | h
    · exact .inl h
    · exact .inr ⟨by simpa using hfx, h⟩

/-- sampling a factor none of whose entries has an effect -/
theorem unheard_flips (H : SingleLayer wr m lom lr x sizes) {X : Arr Int} (hc : lr.auto_clean = false) (hr : lr.auto_reset = false)
    (hd : Unheard lom (lr.factors.map fun i => (m.world.mat i, m.fixed i))) {i : Nat} (hi : i ∈ freeMats m)
    {s : Sampler} (hs : GenericSampler lom lr.factors.length (lr.factors.idxOf i) s) (h0 : ∃ f o, s = .lom f o 0) (t : Nat) {w : World}
    {σ : Nat → Int} (hσ : ∀ i, IsPM (σ i)) (hw : SameUpToSigns m lr x sizes X σ w) :
    ∃ R, runSampler wr s i t w = .ok (w.setVal i R) ∧ R.shape = (w.mat i).val.shape ∧
      ∀ idx, InB (w.mat i).val.shape idx →
        R idx = if (w.mat i).fixed_entries idx = 1 then (w.mat i).val idx else -(w.mat i).val idx := by
  have hi' := H.mem_free hi
  obtain ⟨R, h1, h2, -, -⟩ := H.runs_mat hi' hs t hw.legal.lbda
  refine ⟨R, h1, h2, ?_⟩
  obtain ⟨L, hL⟩ := hw.legal.facs
  obtain ⟨y, hl⟩ := hw.legal.lbda
  obtain ⟨g1, g2⟩ := hL (lr.factors.idxOf i) (w.mat i) (by rw [List.getElem?_map, (H.position hi').1]; rfl)
  have hv : layerView wr w i = some (lr.factors.map (memberAt wr w), lr.factors.idxOf i, (w.mat (wr.child 0)).val, y) := by
    rw [layerView, H.wrLayerOf, H.layerOf i hi', H.wrLayers, H.layers]
    show (([lr] : List LayerInfo)[0]? >>= fun lr => (w.lbda 0).float? >>= fun x => _) = _
    rw [hl]
    rfl
  have hp : (wr.parents i).mapM (parentAt wr w) = some [] := by rw [H.parents i hi']; rfl
  obtain ⟨R', hR'⟩ := generic_runs H.arity hs (memberAt wr w i) (lr.factors.map (memberAt wr w)) (by simp)
    (lr.factors.idxOf i) (H.position hi').2.1 (w.mat (wr.child 0)).val y (wr.rnd t i)
  have hshape : ∀ j ∈ lr.factors, (w.mat j).val.shape = [sizes.getD (lr.factors.idxOf j) 0, L] ∧ PMArr (w.mat j).val := by
    intro j hj
    exact hL (lr.factors.idxOf j) (w.mat j) (by rw [List.getElem?_map, (H.position hj).1]; rfl)
  have hfs : ∀ F ∈ lr.factors.map (memberAt wr w), (∃ D, F.val.shape = [D, L]) ∧ PMArr F.val := by
    intro F hF
    obtain ⟨j, hj, rfl⟩ := List.mem_map.1 hF
    exact ⟨⟨_, (hshape j hj).1⟩, (hshape j hj).2⟩
  -- in terms of the factors at the start
  have hfixed : m.fixed i = false := by
    have := hi
    rw [H.free_eq] at this
    simpa using (List.mem_filter.mp this).2
  have hstart : ∀ j, (m.world.mat j).val.shape = (w.mat j).val.shape := fun j => ((hw.kept.fixed hc hr j).2.1).symm
  have hdim : ∀ j ∈ lr.factors, (m.world.mat j).val.dim 1 = L := by
    intro j hj
    simp [Arr.dim, hstart, (hshape j hj).1]
  have hdim0 : ∀ j, (m.world.mat j).val.dim 0 = (w.mat j).val.dim 0 := by
    intro j
    simp [Arr.dim, hstart]
  have hrow : ∀ j ∈ lr.factors, ∃ τ, SignOf (m.fixed j) τ ∧ ∀ d < (w.mat j).val.dim 0, ∀ l < L,
      (w.mat j).val [d, l] = signedRow (m.world.mat j) τ d l := by
    intro j hj
    obtain ⟨τ, t1, t2⟩ := H.row_signed hc hr hσ hw hj
    refine ⟨τ, t1, fun d hd l hl => t2 d l ?_⟩
    rw [hstart, (hshape j hj).1]
    rw [Arr.dim, (hshape j hj).1] at hd
    exact ⟨hd, hl, trivial⟩
  have hfe : (w.mat i).fixed_entries = (m.world.mat i).fixed_entries := (hw.kept.fixed hc hr i).1
  have hmid : ∀ n < (w.mat i).val.dim 0, ∀ l < L, ∀ v, ∀ l' < L,
      setEntry (midRow (w.mat i).val (w.mat i).fixed_entries n l) l v l' = turnRow (m.world.mat i) (σ i) n l v l' := by
    intro n hn l hl v l' hl'
    unfold setEntry turnRow
    split
    · rfl
    · have e := (hw.signs i hi).2 [n, l'] (by
        rw [hstart, (hshape i hi').1]
        rw [Arr.dim, (hshape i hi').1] at hn
        exact ⟨hn, hl', trivial⟩)
      unfold midRow signedRow
      rw [hfe, e]
      by_cases h1 : (m.world.mat i).fixed_entries [n, l'] = 1 <;> by_cases h2 : l' < l <;> simp [h1, h2]
  have hsg : SignOf (m.fixed i) (σ i) := by
    rcases hσ i with h | h
    · exact .inl h
    · exact .inr ⟨hfixed, h⟩
  have hN : (w.mat i).val.dim 0 = sizes.getD (lr.factors.idxOf i) 0 := by simp [Arr.dim, g1]
  have two : ∀ j ∈ lr.factors, Unheard2 lom ((m.world.mat i).val.dim 1) (m.world.mat i, m.fixed i) (m.world.mat j, m.fixed j) →
      ∀ n < sizes.getD (lr.factors.idxOf i) 0, ∀ d < (memberAt wr w j).val.dim 0, ∀ l < L,
      (memberAt wr w i).fixed_entries [n, l] ≠ 1 →
      pred2 lom L (setEntry (midRow (memberAt wr w i).val (memberAt wr w i).fixed_entries n l) l 1) (fun l => (memberAt wr w j).val [d, l]) =
        pred2 lom L (setEntry (midRow (memberAt wr w i).val (memberAt wr w i).fixed_entries n l) l (-1))
          (fun l => (memberAt wr w j).val [d, l]) := by
    intro j hj hu n hn d hd' l hl hne
    obtain ⟨τ, t1, t2⟩ := hrow j hj
    rw [hdim i hi'] at hu
    have := hu hfixed (σ i) τ hsg t1 n (by rw [hdim0, hN]; exact hn) d (by rw [hdim0]; exact hd') l hl (by
      show (m.world.mat i).fixed_entries [n, l] ≠ 1
      rw [← hfe]; exact hne)
    exact (pred2_rows lom L (hmid n (by rw [hN]; exact hn) l hl 1) (t2 d hd')).trans
      (this.trans (pred2_rows lom L (hmid n (by rw [hN]; exact hn) l hl (-1)) (t2 d hd')).symm)
  have three : ∀ j ∈ lr.factors, ∀ k ∈ lr.factors,
      Unheard3 lom ((m.world.mat i).val.dim 1) (m.world.mat i, m.fixed i) (m.world.mat j, m.fixed j) (m.world.mat k, m.fixed k) →
      ∀ n < sizes.getD (lr.factors.idxOf i) 0, ∀ d < (memberAt wr w j).val.dim 0, ∀ e < (memberAt wr w k).val.dim 0, ∀ l < L,
      (memberAt wr w i).fixed_entries [n, l] ≠ 1 →
      pred3 lom L (setEntry (midRow (memberAt wr w i).val (memberAt wr w i).fixed_entries n l) l 1) (fun l => (memberAt wr w j).val [d, l])
          (fun l => (memberAt wr w k).val [e, l]) =
        pred3 lom L (setEntry (midRow (memberAt wr w i).val (memberAt wr w i).fixed_entries n l) l (-1))
          (fun l => (memberAt wr w j).val [d, l]) (fun l => (memberAt wr w k).val [e, l]) := by
    intro j hj k hk hu n hn d hd' e he l hl hne
    obtain ⟨τ, t1, t2⟩ := hrow j hj
    obtain ⟨ρ, r1, r2⟩ := hrow k hk
    rw [hdim i hi'] at hu
    have := hu hfixed (σ i) τ ρ hsg t1 r1 n (by rw [hdim0, hN]; exact hn) d (by rw [hdim0]; exact hd') e (by rw [hdim0]; exact he) l hl (by
      show (m.world.mat i).fixed_entries [n, l] ≠ 1
      rw [← hfe]; exact hne)
    exact (pred3_rows lom L (hmid n (by rw [hN]; exact hn) l hl 1) (t2 d hd') (r2 e he)).trans
      (this.trans (pred3_rows lom L (hmid n (by rw [hN]; exact hn) l hl (-1)) (t2 d hd') (r2 e he)).symm)
  have hz := unheard_run H.arity hs h0 (by simp) (H.position hi').2.1 hR' (N := sizes.getD (lr.factors.idxOf i) 0) (L := L) g1 g2 hfs
    (by
      intro a ha
      have hnd := H.nodup
      have hfa := H.arity
      match hfac : lr.factors, hfa with
      | [p, q], _ =>
        rw [hfac] at hd hi' ha hnd
        have hpq : p ≠ q := by
          have := List.nodup_cons.mp hnd
          intro h
          exact this.1 (by simp [h])
        simp only [List.mem_cons, List.not_mem_nil, or_false] at hi'
        rcases hi' with rfl | rfl
        · simp only [List.map_cons, List.map_nil, List.idxOf_cons_self, List.eraseIdx_cons_zero, List.cons.injEq, and_true] at ha
          subst ha
          have := two q (by rw [hfac]; simp) hd.1
          rw [hfac] at this
          exact this
        · simp only [List.map_cons, List.map_nil, List.idxOf_cons_ne _ hpq, List.idxOf_cons_self, List.eraseIdx_cons_succ,
            List.eraseIdx_cons_zero, List.cons.injEq, and_true] at ha
          subst ha
          have := two p (by rw [hfac]; simp) hd.2
          rw [hfac] at this
          exact this
      | [p, q, r], _ =>
        rw [hfac] at ha
        have := congrArg List.length ha
        have hlt : [p, q, r].idxOf i < 3 := by rw [← hfac]; exact (H.position hi').2.1.trans_eq (by rw [hfac]; rfl)
        rw [List.length_eraseIdx] at this
        simp [hlt] at this)
    (by
      intro a b ha
      have hnd := H.nodup
      have hfa := H.arity
      match hfac : lr.factors, hfa with
      | [p, q], _ =>
        rw [hfac] at ha
        have := congrArg List.length ha
        have hlt : [p, q].idxOf i < 2 := by rw [← hfac]; exact (H.position hi').2.1.trans_eq (by rw [hfac]; rfl)
        rw [List.length_eraseIdx] at this
        simp [hlt] at this
      | [p, q, r], _ =>
        rw [hfac] at hd hi' ha hnd
        simp only [List.nodup_cons, List.mem_cons, List.not_mem_nil, or_false, not_or] at hnd
        obtain ⟨⟨hpq, hpr⟩, hqr, -⟩ := hnd
        simp only [List.mem_cons, List.not_mem_nil, or_false] at hi'
        rcases hi' with rfl | rfl | rfl
        · simp only [List.map_cons, List.map_nil, List.idxOf_cons_self, List.eraseIdx_cons_zero, List.cons.injEq, and_true] at ha
          obtain ⟨rfl, rfl⟩ := ha
          have := three q (by rw [hfac]; simp) r (by rw [hfac]; simp) hd.1
          rw [hfac] at this
          exact this
        · simp only [List.map_cons, List.map_nil, List.idxOf_cons_ne _ hpq, List.idxOf_cons_self, List.eraseIdx_cons_succ,
            List.eraseIdx_cons_zero, List.cons.injEq, and_true] at ha
          obtain ⟨rfl, rfl⟩ := ha
          have := three p (by rw [hfac]; simp) r (by rw [hfac]; simp) hd.2.1
          rw [hfac] at this
          exact this
        · simp only [List.map_cons, List.map_nil, List.idxOf_cons_ne _ hpr, List.idxOf_cons_ne _ hqr, List.idxOf_cons_self,
            List.eraseIdx_cons_succ, List.eraseIdx_cons_zero, List.cons.injEq, and_true] at ha
          obtain ⟨rfl, rfl⟩ := ha
          have := three p (by rw [hfac]; simp) q (by rw [hfac]; simp) hd.2.2
          rw [hfac] at this
          exact this)
  have e : runSampler wr s i t w = .ok (w.setVal i R') := by
    rw [runSampler, hv, hp]
    show (s.run _ _ _ _ _ _ _ >>= _) = _
    rw [hR']
    rfl
  rw [h1] at e
  have e' : R = R' := by
    have := congrArg (fun w : World => (w.mat i).val) (Except.ok.inj e)
    simpa [World.setVal, upd] using this
  subst e'
  intro idx hidx
  rw [g1] at hidx
  match idx, hidx with
  | [n, l], hidx => exact hz n hidx.1 l hidx.2.1

theorem unheard_call (H : SingleLayer wr m lom lr x sizes) {X : Arr Int} (hc : lr.auto_clean = false)
    (hr : lr.auto_reset = false) (hd : Unheard lom (lr.factors.map fun i => (m.world.mat i, m.fixed i))) {i : Nat} (hi : i ∈ freeMats m)
    {s : Sampler} (hs : GenericSampler lom lr.factors.length (lr.factors.idxOf i) s) (h0 : ∃ f o, s = .lom f o 0) (t : Nat) {w : World}
    {σ : Nat → Int} (hσ : ∀ i, IsPM (σ i)) (hw : SameUpToSigns m lr x sizes X σ w) :
    ∃ w', runSampler wr s i t w = .ok w' ∧ SameUpToSigns m lr x sizes X (upd σ i (-σ i)) w' ∧ w'.lbda = w.lbda := by
  obtain ⟨R, e1, e2, e3⟩ := H.unheard_flips hc hr hd hi hs h0 t hσ hw
  obtain ⟨w', f1, ⟨f2, f3⟩, f4, -⟩ := H.keeps_mat hi hs t ⟨hw.legal, hw.kept⟩
  rw [e1] at f1
  cases f1
  refine ⟨_, e1, ⟨f2, f3, ?_⟩, f4⟩
  intro j hj
  by_cases hji : j = i
  · subst hji
    obtain ⟨s1, s2⟩ := hw.signs j hj
    have hfe := (hw.kept.fixed hc hr j).1
    simp only [World.setVal, upd, if_true]
    refine ⟨e2.trans s1, fun idx hidx => ?_⟩
    rw [e3 idx (by rw [s1]; exact hidx), hfe, s2 idx hidx]
    split <;> simp
  · simpa [World.setVal, upd, hji] using hw.signs j hj

theorem isPM_upd {σ : Nat → Int} (hσ : ∀ i, IsPM (σ i)) (i : Nat) : ∀ j, IsPM (upd σ i (-σ i) j) := by
  intro j
  by_cases hj : j = i
  · subst hj; simpa [upd] using isPM_neg (hσ j)
  · simpa [upd, hj] using hσ j

theorem unheard_calls (H : SingleLayer wr m lom lr x sizes) {X : Arr Int} (hc : lr.auto_clean = false)
    (hr : lr.auto_reset = false) (hd : Unheard lom (lr.factors.map fun i => (m.world.mat i, m.fixed i))) {fct : Nat → Option Sampler}
    (hf : ∀ i ∈ freeMats m, ∃ s, fct i = some s ∧ GenericSampler lom lr.factors.length (lr.factors.idxOf i) s ∧
      ∃ f o, s = .lom f o 0) (t : Nat) (xs : List Nat) (hnd : xs.Nodup) (hxs : ∀ i ∈ xs, i ∈ freeMats m) :
    ∀ {w : World} {σ : Nat → Int}, (∀ i, IsPM (σ i)) → SameUpToSigns m lr x sizes X σ w → ∃ w', callsM (genericEnv wr) fct t xs w = .ok w' ∧
      SameUpToSigns m lr x sizes X (fun i => if i ∈ xs then -σ i else σ i) w' := by
  induction xs with
  | nil => intro w σ _ hw; exact ⟨w, rfl, by simpa using hw⟩
  | cons i xs ih =>
    intro w σ hσ hw
    obtain ⟨n1, n2⟩ := List.nodup_cons.mp hnd
    obtain ⟨s, h1, h2, h3⟩ := hf i (hxs i (by simp))
    obtain ⟨w1, e1, e2, -⟩ := H.unheard_call hc hr hd (hxs i (by simp)) h2 h3 t hσ hw
    obtain ⟨w', g1, g2⟩ := ih n2 (fun j hj => hxs j (by simp [hj])) (isPM_upd hσ i) e2
    refine ⟨w', ?_, ?_⟩
    · simp only [callsM, List.foldlM_cons, h1]
      have : (genericEnv wr).runMat s i t w = .ok w1 := e1
      rw [this]
      exact g1
    · have : (fun j => if j ∈ xs then -upd σ i (-σ i) j else upd σ i (-σ i) j) =
          fun j => if j ∈ i :: xs then -σ j else σ j := by
        funext j
        by_cases hj : j = i
        · subst hj; simp [upd, n1]
        · simp [upd, hj]
      rw [this] at g2
      exact g2

theorem unheard_lbda (H : SingleLayer wr m lom lr x sizes) {X : Arr Int} (hX : X.shape = sizes)
    {g : LbdaUpdate} (hg : get_update_fct none lom.name lr.factors.length = .ok g) (hl : 0 ∈ freeLbdas m) (t : Nat) {w : World}
    {σ : Nat → Int} (hw : SameUpToSigns m lr x sizes X σ w) :
    ∃ w', runUpdate wr g 0 t w = .ok w' ∧ SameUpToSigns m lr x sizes X σ w' ∧ w'.mat = w.mat ∧
      ∀ k, (w'.lbda k).kind = (w.lbda k).kind := by
  obtain ⟨w', f1, ⟨f2, f3⟩, f4, f5⟩ := H.keeps_lbda hX hl hg t ⟨hw.legal, hw.kept⟩
  exact ⟨_, f1, ⟨f2, f3, by rw [f5]; exact hw.signs⟩, f5, f4⟩

end SingleLayer

/-- **C108** is false: let a machine with a single layer of any of the eight generic models with two or three factors and priors 1/2
(also at earlier inferences, if any) have factors none of whose entries has an effect on any prediction when its turn comes. Then
inference returns, and *whatever the data, whatever lambda (fixed or learned, annealed or not) and whatever is drawn*, in every
sample each sampled factor is what it was at the start up to a single sign for all its free entries, which changes from each sample
to the next. -/
theorem C108_unheard {wr : Wiring} {m : Mach Sampler LbdaUpdate} {lom : Lom8} {lr : LayerInfo} {x : Nat}
    {sizes : List Nat} (H : SingleLayer wr m lom lr x sizes) {X : Arr Int} (hX : X.shape = sizes)
    (hw : LegalWorld lr x sizes X m.world) (hc : lr.auto_clean = false) (hr : lr.auto_reset = false)
    (hperm : ∀ t l, (wr.perm t l).Perm l)
    (hprior : ∀ i ∈ freeMats m, m.bernoulli_prior i = 1 / 2 ∧ ∀ s, m.fct i = some s → ∃ f o, s = .lom f o (logit (1 / 2)))
    (hd : Unheard lom (lr.factors.map fun i => (m.world.mat i, m.fixed i)))
    (S cw bmin : Nat) (eps : ℝ) (bmax : Int) (ps fx : Nat) (ha : CanAnneal m fx) (hcw : 1 ≤ cw) (hps : 1 ≤ ps) :
    ∃ m', infer (genericEnv wr) S cw eps bmin bmax ps fx m = .ok m' ∧
      ∀ i ∈ freeMats m, ∃ tr σ, m'.trace i = some tr ∧ tr.shape = S :: (m.world.mat i).val.shape ∧ IsPM σ ∧
        (∀ t < S, MirrorOf (m.world.mat i) (σ * (-1) ^ t) ⟨(m.world.mat i).val.shape, fun idx => tr (t :: idx)⟩) ∧
        ∃ τ, IsPM τ ∧ MirrorOf (m.world.mat i) τ (m'.world.mat i).val := by
  obtain ⟨m', hm', -, -, -, -, -, -, -⟩ := C47_infer_binary H hX hw S cw bmin eps bmax ps fx ha hcw hps
  have hmem : ∀ i ∈ freeMats m, i ∈ lr.factors := fun i hi => H.mem_free hi
  have hnd : (freeMats m).Nodup := by rw [H.free_eq]; exact H.nodup.filter _
  have hpm : ∀ t, ∀ i ∈ (genericEnv wr).perm t (freeMats m), i ∈ freeMats m := fun t i hi => H.perm t _ i hi
  obtain ⟨wm, wl, clock, hC, hend, gm, gl, m1, m2, m3, h1, h2, h3, hwl, -⟩ :=
    C39_traces (genericEnv wr) S cw bmin eps bmax ps fx m m' hnd hpm hm'
  obtain ⟨m1', m2', e1, e2, efct, elfct⟩ := infer_fcts hnd hpm hm'
  rw [h1] at e1; cases e1
  rw [h2] at e2; cases e2
  obtain ⟨m1', a1, a2, a3, a4, a5, a6'⟩ := H.assigns (freeMats m) m hmem rfl rfl (by
    intro i hi s hs
    exact H.cached _ i (H.position hi).1 s hs)
  rw [h1] at a1; cases a1
  obtain ⟨m2', b1, b2, b3⟩ := H.lassigns (m' := m1) a3 (by rw [a4]; exact H.lcached)
  rw [h2] at b1; cases b1
  have hf : ∀ i ∈ freeMats m, ∃ s, m2.fct i = some s ∧ GenericSampler lom lr.factors.length (lr.factors.idxOf i) s ∧
      ∃ f o, s = .lom f o 0 := by
    intro i hi
    cases hfi : m.fct i with
    | none =>
      obtain ⟨f, o, hs⟩ := a6' i hi hfi
      rw [(hprior i hi).1, logit_half] at hs
      exact ⟨_, by rw [b2]; exact hs, a2 i (hmem i hi) _ hs, f, o, rfl⟩
    | some s =>
      have hs := a5 i s hfi
      refine ⟨s, by rw [b2]; exact hs, a2 i (hmem i hi) _ hs, ?_⟩
      rw [← logit_half]
      exact (hprior i hi).2 s hfi
  have hH : Healthy (genericEnv wr) (freeMats m) (freeLbdas m) m.layers m2.fct m2.lfct
      fun w => ∃ σ : Nat → Int, (∀ i, IsPM (σ i)) ∧ SameUpToSigns m lr x sizes X σ w := by
    refine ⟨hpm, ?_, ?_, ?_⟩
    · intro i hi
      obtain ⟨s, s1, s2, s3⟩ := hf i hi
      refine ⟨s, s1, ?_⟩
      rintro t w ⟨σ, hσ, hw⟩
      obtain ⟨w', q1, q2, q3⟩ := H.unheard_call hc hr hd hi s2 s3 t hσ hw
      refine ⟨w', q1, ⟨_, SingleLayer.isPM_upd hσ i, q2⟩, fun k => by rw [q3]⟩
    · intro k hk
      obtain ⟨g, g1, g2⟩ := b3 k hk
      obtain rfl := H.free_lbda hk
      refine ⟨g, g1, ?_⟩
      rintro t w ⟨σ, hσ, hw⟩
      obtain ⟨w', q1, q2, -, q3⟩ := H.unheard_lbda hX g2 hk t hw
      exact ⟨w', q1, ⟨σ, hσ, q2⟩, q3⟩
    · intro lr' hlr' reset clean w fs b hauto
      rw [H.layers, List.mem_singleton] at hlr'
      subst hlr'
      simp [hc, hr] at hauto
  have k1 := fold_keeps (fun a i b => assignFct_keeps) h1
  have k2 := fold_keeps (fun a i b => assignLfct_keeps) h2
  have e2 := k1.1.trans k2.1
  obtain ⟨m3', c1, σ, hσ, c2⟩ := hH.burn_in_anneal (nodup_freeLbdas m) (show ps ≠ 0 by omega) (show cw ≠ 0 by omega)
    (eps := eps) (b := bmin) (bmax := bmax) (fx := fx) (m := resetIndices (freeMats m) (freeLbdas m) m2) rfl rfl e2.layers
    (by
      have e : m2.anneal = m.anneal := e2.anneal
      have e' : m2.world = m.world := by rw [k2.2, k1.2]
      unfold AnnealOK
      show m2.anneal = false ∨ fx = 0 ∧ (∀ k ∈ freeLbdas m, ∃ x, x ≠ 0 ∧ m2.world.lbda k = .scalar (.fin x)) ∧ _
      rw [e, e']
      refine ha.imp_right fun ⟨h1, h2⟩ => ⟨h1, fun k hk => ?_, fun i hi f hfi t w w' hI hr' => ?_, fun w k y hk hI => ?_⟩
      · obtain rfl := H.free_lbda hk
        exact h2
      · obtain ⟨s, s1, s2, s3⟩ := hf i hi
        have hfi' : m2.fct i = some f := hfi
        rw [s1] at hfi'
        cases hfi'
        obtain ⟨σ, hσ, hI⟩ := hI
        obtain ⟨w1, q1, -, q3⟩ := H.unheard_call hc hr hd hi s2 s3 t hσ hI
        have : (genericEnv wr).runMat f i t w = .ok w1 := q1
        rw [this] at hr'
        cases hr'
        exact q3
      · obtain rfl := H.free_lbda hk
        obtain ⟨σ, hσ, hI⟩ := hI
        refine ⟨σ, hσ, ⟨hI.legal.facs, hI.legal.data, y, by simp [upd]⟩, ⟨hI.kept.others, fun k' hk' => ?_, hI.kept.fixed⟩, hI.signs⟩
        have : k' ≠ 0 := fun h => hk' (h ▸ hk)
        simp [upd, this, hI.kept.lbda k' hk'])
    (by
      show ∃ σ : Nat → Int, (∀ i, IsPM (σ i)) ∧ SameUpToSigns m lr x sizes X σ m2.world
      rw [k2.2, k1.2]
      refine ⟨fun _ => 1, fun _ => .inl rfl, hw, ⟨fun _ _ => rfl, fun _ _ => rfl, fun _ _ _ => ⟨rfl, rfl, fun _ _ => rfl, fun _ => rfl⟩⟩,
        fun i _ => ⟨rfl, fun idx _ => ?_⟩⟩
      split <;> simp)
  rw [h3] at c1; cases c1
  rw [efct, elfct] at hC
  have hsweep : ∀ t, t < S → SameUpToSigns m lr x sizes X (fun i => σ i * (-1) ^ t) (wl t) →
      SameUpToSigns m lr x sizes X (fun i => σ i * (-1) ^ (t + 1)) (wm t) ∧
      SameUpToSigns m lr x sizes X (fun i => σ i * (-1) ^ (t + 1)) (wl (t + 1)) := by
    intro t ht hw
    have hwm : SameUpToSigns m lr x sizes X (fun i => σ i * (-1) ^ (t + 1)) (wm t) := by
      obtain ⟨w', q1, q2⟩ := H.unheard_calls hc hr hd hf (clock + t) (wr.perm (clock + t) (freeMats m))
        ((hperm _ _).nodup_iff.mpr hnd) (H.perm _ _) (fun i => isPM_alternate (hσ i) t) hw
      have := hC.mats t ht
      rw [sweepM] at this
      have hp : (genericEnv wr).perm (clock + t) (freeMats m) = wr.perm (clock + t) (freeMats m) := rfl
      rw [hp, q1] at this
      cases this
      refine ⟨q2.legal, q2.kept, fun i hi => ?_⟩
      have := q2.signs i hi
      simp only [(hperm _ _).mem_iff.mpr hi, if_true] at this
      rw [pow_succ]
      simpa using this
    refine ⟨hwm, ?_⟩
    have := hC.lbdas t ht
    revert this
    have hk0 : ∀ k ∈ freeLbdas m, k = 0 := fun k hk => H.free_lbda hk
    have hnl := nodup_freeLbdas m
    match hfl : freeLbdas m with
    | [] =>
      intro this
      simp only [sweepL, List.foldlM_nil, pure, Except.pure, Except.ok.injEq] at this
      rw [← this]
      exact hwm
    | [k] =>
      intro this
      obtain rfl := hk0 k (by rw [hfl]; simp)
      obtain ⟨g, g1, g2⟩ := b3 0 (by rw [hfl]; simp)
      obtain ⟨w', q1, q2, -, -⟩ := H.unheard_lbda hX g2 (by rw [hfl]; simp) (clock + t + 1) hwm
      simp only [sweepL, List.foldlM_cons, List.foldlM_nil, g1] at this
      have hr : (genericEnv wr).runLbda g 0 (clock + t + 1) (wm t) = runUpdate wr g 0 (clock + t + 1) (wm t) := rfl
      rw [hr, q1] at this
      simp only [bind, Except.bind, pure, Except.pure, Except.ok.injEq] at this
      rw [← this]
      exact q2
    | k :: k' :: rest =>
      exfalso
      have e1 := hk0 k (by rw [hfl]; simp)
      have e2 := hk0 k' (by rw [hfl]; simp)
      rw [hfl, e1, e2] at hnl
      simp at hnl
  have hall : ∀ t, t ≤ S → SameUpToSigns m lr x sizes X (fun i => σ i * (-1) ^ t) (wl t) := by
    intro t
    induction t with
    | zero => intro _; rw [hwl]; simpa using c2
    | succ t ih => intro ht; exact (hsweep t (by omega) (ih (by omega))).2
  refine ⟨m', hm', ?_⟩
  · intro i hi
    obtain ⟨tr, t1, t2⟩ := gm i hi
    have hmod : ∀ j ∈ freeMats m, modelOf m j ≠ some "OR-AND-IBP" := by
      intro j hj
      have : modelOf m j = some lom.name := by
        rw [modelOf, H.layerOf j (hmem j hj), H.layers, ← H.model]; rfl
      rw [this]
      cases lom <;> decide
    rcases t2 with ⟨-, t3, t4⟩ | ⟨t3, -⟩ | ⟨-, ⟨j, hj, t3⟩, -⟩
    · refine ⟨tr, σ i * -1, t1, ?_, by simpa using isPM_neg (hσ i), fun t ht => ?_, _, isPM_alternate (hσ i) S, by rw [hend]; exact (hall S le_rfl).signs i hi⟩
      · rw [t3, ((hall 0 (by omega)).signs i hi).1]
      · obtain ⟨t5, t6⟩ := t4 t ht
        have := ((hsweep t ht (hall t ht.le)).1).signs i hi
        refine ⟨rfl, fun idx hidx => ?_⟩
        show tr (t :: idx) = _
        rw [t6, this.2 idx hidx]
        split
        · rfl
        · ring
    · exact absurd t3 (hmod i hi)
    · exact absurd t3 (hmod j hj)


/-- **C108** is false, what the user sees: under the hypotheses of `C108_unheard`, for every even number of samples the mean of the
samples of every free entry of every sampled factor is 0 and `set_to_map` sets it to -1: whatever the data, lambda and draws. -/
theorem C108_unheard_mean {wr : Wiring} {m : Mach Sampler LbdaUpdate} {lom : Lom8} {lr : LayerInfo}
    {x : Nat} {sizes : List Nat} (H : SingleLayer wr m lom lr x sizes) {X : Arr Int} (hX : X.shape = sizes)
    (hw : LegalWorld lr x sizes X m.world) (hc : lr.auto_clean = false) (hr : lr.auto_reset = false)
    (hperm : ∀ t l, (wr.perm t l).Perm l)
    (hprior : ∀ i ∈ freeMats m, m.bernoulli_prior i = 1 / 2 ∧ ∀ s, m.fct i = some s → ∃ f o, s = .lom f o (logit (1 / 2)))
    (hd : Unheard lom (lr.factors.map fun i => (m.world.mat i, m.fixed i)))
    (S cw bmin : Nat) (eps : ℝ) (bmax : Int) (ps fx : Nat) (ha : CanAnneal m fx) (hcw : 1 ≤ cw) (hps : 1 ≤ ps) (hS : 0 < S) (hev : Even S) :
    ∃ m', infer (genericEnv wr) S cw eps bmin bmax ps fx m = .ok m' ∧
      ∀ i ∈ freeMats m, ∃ a, (m'.ofac i).mean = .nums a ∧ a.shape = (m.world.mat i).val.shape ∧
        ∀ idx, InB (m.world.mat i).val.shape idx → (m.world.mat i).fixed_entries idx ≠ 1 →
          a idx = 0 ∧ (m'.ofac i).set_to_map.val idx = -1 := by
  obtain ⟨m', h1, h2⟩ := C108_unheard H hX hw hc hr hperm hprior hd S cw bmin eps bmax ps fx ha hcw hps
  refine ⟨m', h1, fun i hi => ?_⟩
  obtain ⟨tr, σ, t1, t2, t3, t4, -⟩ := h2 i hi
  have hmean : (m'.ofac i).mean = .nums ⟨(m.world.mat i).val.shape,
      fun idx => ((List.range S).map fun t => (tr (t :: idx) : ℝ)).sum / S⟩ := by
    rw [Mach.ofac, t1]
    exact mean_samples t2 hS
  have hz : ∀ idx, InB (m.world.mat i).val.shape idx → (m.world.mat i).fixed_entries idx ≠ 1 →
      ((List.range S).map fun t => (tr (t :: idx) : ℝ)).sum = 0 := by
    intro idx hidx hfe
    obtain ⟨k, hk⟩ := hev
    have e : (List.range S).map (fun t => (tr (t :: idx) : ℝ)) =
        (List.range S).map fun t => ((σ * (m.world.mat i).val idx : Int) : ℝ) * (-1 : ℝ) ^ t := by
      apply List.map_congr_left
      intro t ht
      have := (t4 t (List.mem_range.mp ht)).2 idx hidx
      simp only [hfe, if_false] at this
      rw [show tr (t :: idx) = _ from this]
      push_cast
      ring
    rw [e, show S = 2 * k by omega]
    exact sum_alternating _ k
  refine ⟨_, hmean, rfl, fun idx hidx hfe => ⟨?_, ?_⟩⟩
  · show _ / _ = _
    rw [hz idx hidx hfe, zero_div]
  · unfold OFac.set_to_map
    rw [hmean]
    simp [Arr.map, hz idx hidx hfe]

end LFM
