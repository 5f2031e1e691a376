import Verif.Lemmas.OtherTraces
import Verif.Model.Posterior
import Verif.Props.Output
import Verif.Props.SingleLayer

/-!
# Property C81: predictions after inference
-/

namespace LFM

open Spec

/-- **C39** (all machines): inference leaves the traces of members alone that it does not sample -/
theorem C39_others {F G : Type} (env : Env F G) (S cw bmin : Nat) (eps : ℝ) (bmax : Int) (ps fx : Nat) (m m' : Mach F G)
    (hp : ∀ t, ∀ i ∈ env.perm t (freeMats m), i ∈ freeMats m) (h : infer env S cw eps bmin bmax ps fx m = .ok m') :
    (∀ i, m.fixed i = true → m'.trace i = m.trace i) ∧ ∀ k, m.lfixed k = true → m'.ltrace k = m.ltrace k := by
  obtain ⟨h1, h2⟩ := infer_sameTraces hp h
  refine ⟨fun i hi => h1 i ?_, fun k hk => h2 k ?_⟩
  · simp [freeMats, hi]
  · simp [freeLbdas, hk]

theorem samplesOf_length (tr : Arr Int) : (samplesOf tr).length = tr.dim 0 := by simp [samplesOf]

theorem samplesOf_mem {tr a : Arr Int} {S : Nat} {sh : List Nat} (hs : tr.shape = S :: sh) (hp : PMArr tr)
    (ha : a ∈ samplesOf tr) : a.shape = sh ∧ PMArr a := by
  simp only [samplesOf, List.mem_map, List.mem_range, Arr.dim, hs, List.getD_cons_zero, List.drop_succ_cons,
    List.drop_zero] at ha
  obtain ⟨t, ht, rfl⟩ := ha
  refine ⟨rfl, ?_⟩
  intro idx hi
  exact hp (t :: idx) (by rw [hs]; exact ⟨ht, hi⟩)

/-- the samples in the trace of a parameter that is a number -/
theorem scalar_trace {tr : LTrace} {S : Nat} (hS : 1 ≤ S) (hl : tr.len = S)
    (h : ∀ t < S, ∃ y, tr.row t = some (.scalar (.fin y))) :
    ∃ xs, tr = .scalars xs ∧ xs.length = S ∧ ∀ x ∈ xs, ∃ y, x = .fin y := by
  cases tr with
  | vectors c rows =>
    obtain ⟨y, hy⟩ := h 0 hS
    simp only [LTrace.row, Option.map_eq_some_iff] at hy
    obtain ⟨a, -, ha⟩ := hy
    cases ha
  | scalars xs =>
    refine ⟨xs, rfl, hl, ?_⟩
    intro x hx
    obtain ⟨t, ht, rfl⟩ := List.mem_iff_getElem.mp hx
    obtain ⟨y, hy⟩ := h t (by rw [← hl]; exact ht)
    simp only [LTrace.row, List.getElem?_eq_getElem ht, Option.map_some, Option.some.injEq, LVal.scalar.injEq] at hy
    exact ⟨y, hy⟩

/-- techniques that work after inference: `factor_mean` for two factors, or three and OR-AND; `mc` if lambda and all
factors have been sampled -/
def Usable (m : Mach Sampler LbdaUpdate) (lom : Lom8) (lr : LayerInfo) (technique : String) : Prop :=
  technique = "point_estimate" ∨ technique = "factor_map" ∨
  technique = "factor_mean" ∧ (lr.factors.length = 2 ∨ lom = .OR_AND) ∨
  technique = "mc" ∧ m.lfixed 0 = false ∧ ∀ i ∈ lr.factors, m.fixed i = false

/-- the layer after inference -/
theorem SingleLayer.after_infer {wr : Wiring} {m : Mach Sampler LbdaUpdate} {lom : Lom8} {lr : LayerInfo} {x : Nat}
    {sizes : List Nat} (H : SingleLayer wr m lom lr x sizes) {X : Arr Int} (hX : X.shape = sizes)
    (hw : LegalWorld lr x sizes X m.world) (S cw bmin : Nat) (eps : ℝ) (bmax : Int) (ps fx : Nat) (ha : CanAnneal m fx)
    (hS : 1 ≤ S) (hcw : 1 ≤ cw) (hps : 1 ≤ ps) (hfix : ∀ i ∈ lr.factors, m.fixed i = true → m.trace i = none)
    (hlfix : m.lfixed 0 = true → m.ltrace 0 = none) (pred : Option (Arr NpF)) :
    ∃ m' s L, infer (genericEnv wr) S cw eps bmin bmax ps fx m = .ok m' ∧ m'.olayer 0 pred = some s ∧
      s.factors = lr.factors.map m'.ofac ∧ s.model = lom.name ∧ s.prediction = pred ∧ rows s = sizes ∧
      (∀ f ∈ s.factors, LegalFac L L f) ∧ (∀ f ∈ s.factors, f.trace ≠ some []) ∧ LegalLbda s.lbda ∧
      (∀ i ∈ lr.factors, m.fixed i = false → HasSamples S (m'.ofac i)) ∧
      (∀ i ∈ lr.factors, m.fixed i = true → (m'.ofac i).trace = none) ∧
      (lbdaSamples s.lbda = if m.lfixed 0 = true then none else some S) ∧
      (lr.auto_clean = false → lr.auto_reset = false → ∀ i ∈ lr.factors, (m.world.mat i).val.dim 1 = L) := by
  obtain ⟨m', h1, ⟨L, h2⟩, ⟨y, h3⟩, -, -, hkeep, h4, h5⟩ := C47_infer_binary H hX hw S cw bmin eps bmax ps fx ha hcw hps
  obtain ⟨o1, o2⟩ := C39_others (genericEnv wr) S cw bmin eps bmax ps fx m m' (fun t i hi => H.perm t _ i hi) h1
  have hlay : m'.layers = m.layers := by
    obtain ⟨R, -⟩ := (⟨fun _ => trivial, fun _ _ => trivial, fun t i hi => H.perm t _ i hi, fun _ _ _ _ _ _ _ => trivial,
      fun _ _ _ _ _ _ _ => trivial, fun _ _ _ _ => trivial, fun _ _ _ _ _ _ _ _ _ => trivial⟩ :
      WSteps (genericEnv wr) (freeMats m) (freeLbdas m) m.layers fun _ _ => True).infer_rel h1
    exact R.layers
  have hfree : ∀ i ∈ lr.factors, m.fixed i = false → i ∈ freeMats m := by
    intro i hi hf
    rw [H.free_eq]
    simp [hi, hf]
  have hl0 : m.lfixed 0 = false → 0 ∈ freeLbdas m := by
    intro hf
    simp [freeLbdas, H.layers, hf]
  obtain ⟨lb, hlb, hlb2, hlb3⟩ : ∃ lb, m'.olbda 0 = some lb ∧ LegalLbda lb ∧
      lbdaSamples lb = if m.lfixed 0 = true then none else some S := by
    cases hf : m.lfixed 0 with
    | true =>
      refine ⟨.scalar (.fin y) none, ?_, ⟨by simp, by simp⟩, rfl⟩
      rw [Mach.olbda, h3, o2 0 hf, hlfix hf]
    | false =>
      obtain ⟨tr, t1, t2, t3⟩ := h5 0 (hl0 hf)
      obtain ⟨xs, rfl, e2, e3⟩ := scalar_trace hS t2 t3
      refine ⟨.scalar (.fin y) (some xs), ?_, ⟨?_, ?_⟩, ?_⟩
      · rw [Mach.olbda, h3, t1]
      · rintro rfl
        simp at e2
        omega
      · intro z hz
        obtain ⟨u, rfl⟩ := e3 z hz
        exact ⟨by simp, by simp⟩
      · simp [lbdaSamples, e2]
  have hsh : ∀ j i, lr.factors[j]? = some i → (m'.world.mat i).val.shape = [sizes.getD j 0, L] := fun j i h => (h2 j i h).1
  have hfac : ∀ i ∈ lr.factors, LegalFac L L (m'.ofac i) ∧ (m'.ofac i).trace ≠ some [] ∧
      (m.fixed i = false → HasSamples S (m'.ofac i)) ∧ (m.fixed i = true → (m'.ofac i).trace = none) := by
    intro i hi
    obtain ⟨e1, e2⟩ := h2 _ i (H.position hi).1
    cases hf : m.fixed i with
    | true =>
      have : (m'.ofac i).trace = none := by rw [Mach.ofac, o1 i hf, hfix i hi hf]; rfl
      refine ⟨⟨⟨_, e1, ?_⟩, e2, ?_⟩, by rw [this]; simp, by simp, fun _ => this⟩
      · intro tr htr; rw [this] at htr; cases htr
      · intro tr htr; rw [this] at htr; cases htr
    | false =>
      obtain ⟨tr, t1, t2, t3⟩ := h4 i (hfree i hi hf)
      have ht : (m'.ofac i).trace = some (samplesOf tr) := by rw [Mach.ofac, t1]; rfl
      have hlen : (samplesOf tr).length = S := by rw [samplesOf_length, Arr.dim, t2]; rfl
      refine ⟨⟨⟨_, e1, ?_⟩, e2, ?_⟩, ?_, fun _ => ⟨_, ht, hlen⟩, by simp⟩
      · intro tr' htr a ha
        rw [ht, Option.some.injEq] at htr
        subst htr
        rw [(samplesOf_mem t2 t3 ha).1, e1]
      · intro tr' htr a ha
        rw [ht, Option.some.injEq] at htr
        subst htr
        exact (samplesOf_mem t2 t3 ha).2
      · rw [ht]
        intro hc
        rw [Option.some.injEq] at hc
        rw [hc] at hlen
        simp at hlen
        omega
  refine ⟨m', ⟨lr.model, lr.factors.map m'.ofac, lb, ⟨[], fun _ => 0⟩, [], pred⟩, L, h1, ?_, rfl, H.model, rfl, ?_, ?_, ?_,
    hlb2, fun i hi => (hfac i hi).2.2.1, fun i hi => (hfac i hi).2.2.2, hlb3, ?_⟩
  · rw [Mach.olayer, hlb, hlay, H.layers]
    rfl
  · simp only [rows, List.map_map]
    refine List.ext_getElem (by simp [H.sizes]) ?_
    intro j hj1 hj2
    rw [List.getElem_map]
    simp only [Function.comp, Mach.ofac]
    have hj : j < lr.factors.length := by simpa using hj1
    rw [hsh j _ (List.getElem?_eq_getElem hj)]
    simp [List.getD_eq_getElem?_getD, List.getElem?_eq_getElem hj2]
  · intro f hf
    obtain ⟨i, hi, rfl⟩ := List.mem_map.mp hf
    exact (hfac i hi).1
  · intro f hf
    obtain ⟨i, hi, rfl⟩ := List.mem_map.mp hf
    exact (hfac i hi).2.1
  · intro e1 e2 i hi
    rw [Arr.dim, ← (hkeep e1 e2).2.1 i, (h2 _ i (H.position hi).1).1]
    rfl

/-- **C81** (`_partial`: see `Usable` for the techniques; `mc` fails if lambda or a factor is fixed, `C81_mc_wrong`).
After inference in a machine with a single layer of one of the eight generic models, whatever has been drawn, every
prediction of the layer has the shape of the data and consists of probabilities, with or without noise. -/
theorem C81_predicts_partial {wr : Wiring} {m : Mach Sampler LbdaUpdate} {lom : Lom8} {lr : LayerInfo} {x : Nat}
    {sizes : List Nat} (H : SingleLayer wr m lom lr x sizes) {X : Arr Int} (hX : X.shape = sizes)
    (hw : LegalWorld lr x sizes X m.world) (S cw bmin : Nat) (eps : ℝ) (bmax : Int) (ps fx : Nat) (ha : CanAnneal m fx)
    (hS : 1 ≤ S) (hcw : 1 ≤ cw) (hps : 1 ≤ ps) (hfix : ∀ i ∈ lr.factors, m.fixed i = true → m.trace i = none)
    (hlfix : m.lfixed 0 = true → m.ltrace 0 = none) (pred : Option (Arr NpF)) :
    ∃ m' s, infer (genericEnv wr) S cw eps bmin bmax ps fx m = .ok m' ∧ m'.olayer 0 pred = some s ∧
      ∀ argsort technique noisy mp, Usable m lom lr technique →
        ∃ P, (output argsort technique noisy false mp s).1 = .ok P ∧ P.shape = X.shape ∧
          ∀ idx, InB X.shape idx → if mp then IsProb (P idx) else IsSigned (P idx) := by
  obtain ⟨m', s, L, h1, h2, h3, h4, -, h6, h7, h8, h9, h10, -, h12, -⟩ :=
    H.after_infer hX hw S cw bmin eps bmax ps fx ha hS hcw hps hfix hlfix pred
  refine ⟨m', s, h1, h2, ?_⟩
  intro argsort technique noisy mp ht
  have hlen : s.factors.length = lr.factors.length := by rw [h3, List.length_map]
  have hne : s.factors ≠ [] := by
    intro hc
    rw [hc] at hlen
    have := H.arity
    simp at hlen
    omega
  rw [hX, ← h6]
  refine C49_probabilities_partial argsort technique noisy mp s lom.outer lom.inner L L hne h7 (.inl h4) h8 (.inl rfl) ?_
    fun _ => h9
  rcases ht with ht | ht | ⟨ht, h⟩ | ⟨ht, hl, hf⟩
  · exact .inl ht
  · exact .inr (.inl ht)
  · refine .inr (.inr (.inl ⟨ht, ?_⟩))
    rcases H.arity with h2' | h3'
    · exact .inl ⟨by omega, lom, rfl, rfl⟩
    · obtain rfl := h.resolve_left (by omega)
      exact .inr ⟨by omega, rfl, rfl⟩
  · refine .inr (.inr (.inr ⟨ht, S, hS, by rw [h12, hl]; rfl, ?_⟩))
    intro f hf'
    rw [h3] at hf'
    obtain ⟨i, hi, rfl⟩ := List.mem_map.mp hf'
    exact h10 i hi (hf i hi)

theorem lom_cast {o i : LOp} {L n n' : Nat} (h : n = n') {Q : Fin L → Fin n → Prop} {Q' : Fin L → Fin n' → Prop}
    (hQ : ∀ l k, Q l k ↔ Q' l (Fin.cast h k)) : lom o i Q ↔ lom o i Q' := by
  subst h
  have : Q = Q' := by
    funext l k
    exact propext (hQ l k)
  rw [this]

theorem fraction_congr {S : Nat} {P Q : Nat → Prop} (h : ∀ t < S, P t ↔ Q t) : fraction S P = fraction S Q := by
  classical
  rw [fraction, fraction]
  have : (Finset.univ.filter fun t : Fin S => P t) = Finset.univ.filter fun t : Fin S => Q t :=
    Finset.filter_congr fun t _ => h t t.2
  congr 2
  convert congrArg Finset.card this

theorem sample_ofac {m : Mach Sampler LbdaUpdate} {i t : Nat} {tr : Arr Int} (h : m.trace i = some tr)
    (ht : t < tr.dim 0) (idx : List Nat) : sample (m.ofac i) t idx = tr (t :: idx) := by
  simp [sample, Mach.ofac, h, samplesOf, ht]

/-- **C81** (`mc`): if lambda and all factors have been sampled, `technique='mc'` returns in every cell the fraction of
the samples in the traces whose factors predict 1 there -/
theorem C81_mc {wr : Wiring} {m : Mach Sampler LbdaUpdate} {lom : Lom8} {lr : LayerInfo} {x : Nat}
    {sizes : List Nat} (H : SingleLayer wr m lom lr x sizes) {X : Arr Int} (hX : X.shape = sizes)
    (hw : LegalWorld lr x sizes X m.world) (S cw bmin : Nat) (eps : ℝ) (bmax : Int) (ps fx : Nat) (ha : CanAnneal m fx)
    (hS : 1 ≤ S) (hcw : 1 ≤ cw) (hps : 1 ≤ ps) (hfree : ∀ i ∈ lr.factors, m.fixed i = false) (hl : m.lfixed 0 = false)
    (pred : Option (Arr NpF)) :
    ∃ m' s L, ∃ tr : Nat → Arr Int, infer (genericEnv wr) S cw eps bmin bmax ps fx m = .ok m' ∧
      m'.olayer 0 pred = some s ∧
      (∀ j i, lr.factors[j]? = some i → m'.trace i = some (tr j) ∧ (tr j).shape = [S, X.shape.getD j 0, L]) ∧
      ∀ argsort, ∃ P, (output argsort "mc" false false true s).1 = .ok P ∧ P.shape = X.shape ∧
        ∀ idx, InB X.shape idx → P idx = .fin (fraction S fun t =>
          Spec.lom lom.outer lom.inner fun (l : Fin L) (j : Fin lr.factors.length) => tr j [t, idx.getD j 0, l] = 1) := by
  obtain ⟨m', s, L, h1, h2, h3, h4, -, h6, h7, -, -, h10, -, h12, -⟩ :=
    H.after_infer hX hw S cw bmin eps bmax ps fx ha hS hcw hps (fun i hi hf => by rw [hfree i hi] at hf; cases hf)
      (fun hf => by rw [hl] at hf; cases hf) pred
  have hlen : s.factors.length = lr.factors.length := by rw [h3, List.length_map]
  have hne : s.factors ≠ [] := by
    intro hc
    rw [hc] at hlen
    have := H.arity
    simp at hlen
    omega
  have htr : ∀ j i, lr.factors[j]? = some i → ∃ t, m'.trace i = some t ∧ t.shape = [S, X.shape.getD j 0, L] := by
    intro j i hj
    have hi : i ∈ lr.factors := List.mem_of_getElem? hj
    have hj' : j < lr.factors.length := (List.getElem?_eq_some_iff.mp hj).1
    obtain ⟨N, n1, n2⟩ := (h7 (m'.ofac i) (by rw [h3]; exact List.mem_map_of_mem hi)).shape
    obtain ⟨ss, q1, q2⟩ := h10 i hi (hfree i hi)
    obtain ⟨t, t1, t2⟩ : ∃ t, m'.trace i = some t ∧ samplesOf t = ss := by
      rw [Mach.ofac] at q1
      simpa [Option.map_eq_some_iff] using q1
    refine ⟨t, t1, ?_⟩
    have hd : t.dim 0 = S := by rw [← samplesOf_length, t2, q2]
    have hN : N = X.shape.getD j 0 := by
      have : (rows s)[j]? = some N := by
        simp [rows, h3, hj, n1]
      rw [h6, ← hX] at this
      rw [List.getD_eq_getElem?_getD, this]
      rfl
    have hsh : t.shape.drop 1 = [N, L] := by
      refine n2 _ q1 ⟨t.shape.drop 1, fun idx => t (0 :: idx)⟩ ?_
      rw [← t2]
      simp only [samplesOf, List.mem_map, List.mem_range]
      exact ⟨0, by omega, rfl⟩
    match hts : t.shape with
    | [] => rw [hts] at hsh; simp at hsh
    | a :: rest =>
      rw [hts] at hsh
      rw [Arr.dim, hts] at hd
      simp only [List.getD_cons_zero] at hd
      simp only [List.drop_succ_cons, List.drop_zero] at hsh
      rw [hd, hsh, hN]
  refine ⟨m', s, L, fun j => (m'.trace (lr.factors.getD j 0)).getD ⟨[], fun _ => 0⟩, h1, h2, ?_, ?_⟩
  · intro j i hj
    obtain ⟨t, t1, t2⟩ := htr j i hj
    have : lr.factors.getD j 0 = i := by rw [List.getD_eq_getElem?_getD, hj]; rfl
    simp only [this, t1, Option.getD_some]
    exact ⟨trivial, t2⟩
  · intro argsort
    obtain ⟨P, p1, p2, p3⟩ := C51_mc_fraction_partial argsort s lom.outer lom.inner L L S hne h7 hS
      (by rw [h12, hl]; rfl) (fun f hf => by
        rw [h3] at hf
        obtain ⟨i, hi, rfl⟩ := List.mem_map.mp hf
        exact h10 i hi (hfree i hi)) (.inl h4)
    refine ⟨P, by rw [p1], by rw [p2, h6, hX], ?_⟩
    intro idx hidx
    rw [p3 idx (by rw [h6, ← hX]; exact hidx)]
    congr 1
    refine fraction_congr fun t ht => ?_
    refine lom_cast hlen fun l k => ?_
    have hk : (k : Nat) < lr.factors.length := lt_of_lt_of_eq k.2 hlen
    obtain ⟨tt, t1, t2⟩ := htr k _ (List.getElem?_eq_getElem hk)
    have e1 : s.factors[k] = m'.ofac lr.factors[(k : Nat)] := by
      simp [h3]
    rw [e1, sample_ofac t1 (by rw [Arr.dim, t2]; exact ht)]
    have e2 : lr.factors.getD k 0 = lr.factors[(k : Nat)] := by
      simp [List.getD_eq_getElem?_getD, List.getElem?_eq_getElem hk]
    rw [Fin.val_cast]
    beta_reduce
    rw [e2, t1, Option.getD_some]

/-- **C81** is wrong for `mc`: it raises AttributeError in every such machine in which lambda is fixed, or a factor is
(the other techniques work, `C81_predicts_partial`) -/
theorem C81_mc_wrong {wr : Wiring} {m : Mach Sampler LbdaUpdate} {lom : Lom8} {lr : LayerInfo} {x : Nat}
    {sizes : List Nat} (H : SingleLayer wr m lom lr x sizes) {X : Arr Int} (hX : X.shape = sizes)
    (hw : LegalWorld lr x sizes X m.world) (S cw bmin : Nat) (eps : ℝ) (bmax : Int) (ps fx : Nat) (ha : CanAnneal m fx)
    (hS : 1 ≤ S) (hcw : 1 ≤ cw) (hps : 1 ≤ ps) (hfix : ∀ i ∈ lr.factors, m.fixed i = true → m.trace i = none)
    (hlfix : m.lfixed 0 = true → m.ltrace 0 = none) (pred : Option (Arr NpF))
    (hbad : m.lfixed 0 = true ∨ ∃ i ∈ lr.factors, m.fixed i = true) :
    ∃ m' s, infer (genericEnv wr) S cw eps bmin bmax ps fx m = .ok m' ∧ m'.olayer 0 pred = some s ∧
      ∀ argsort noisy mp, (output argsort "mc" noisy false mp s).1 = .error .attributeError := by
  obtain ⟨m', s, L, h1, h2, h3, h4, -, h6, h7, h8, h9, h10, h11, h12, -⟩ :=
    H.after_infer hX hw S cw bmin eps bmax ps fx ha hS hcw hps hfix hlfix pred
  refine ⟨m', s, h1, h2, ?_⟩
  intro argsort noisy mp
  have hgen : outputGeneric "mc" s = .error .attributeError := by
    rw [outputGeneric, if_neg (by decide), if_neg (by decide), if_neg (by decide), if_neg (by decide), if_pos rfl]
    have ht : s.lbda.traceLen = lbdaSamples s.lbda := by cases s.lbda <;> rfl
    rw [ht, h12]
    split
    · rfl
    · rename_i S' hS'
      split at hS'
      · cases hS'
      · rename_i hl
        rw [Option.some.injEq] at hS'
        subst hS'
        have htA : traceAt s.factors 0 = .error .attributeError := by
          obtain ⟨i, hi, hf⟩ := hbad.resolve_left hl
          rw [traceAt, h3]
          have hi' : m'.ofac i ∈ lr.factors.map m'.ofac := List.mem_map_of_mem hi
          have hn : (m'.ofac i).trace = none := h11 i hi hf
          have hall : ∀ f ∈ lr.factors.map m'.ofac, f.trace = none ∨ HasSamples S f := by
            intro f hf
            obtain ⟨j, hj, rfl⟩ := List.mem_map.mp hf
            cases hfj : m.fixed j with
            | true => exact .inl (h11 j hj hfj)
            | false => exact .inr (h10 j hj hfj)
          revert hi' hall
          generalize lr.factors.map m'.ofac = fs
          induction fs with
          | nil => intro h; simp at h
          | cons f fs ih =>
            intro hmem hall
            rw [List.mapM_cons]
            rcases hall f (by simp) with h | ⟨tr, h, hlen⟩
            · rw [h]; rfl
            · rw [h]
              have h0 : tr[0]? ≠ none := by
                rw [ne_eq, List.getElem?_eq_none_iff]; omega
              obtain ⟨a, ha⟩ := Option.ne_none_iff_exists'.mp h0
              simp only [ha]
              have hm2 : m'.ofac i ∈ fs := by
                rcases List.mem_cons.mp hmem with h' | h'
                · rw [← h', hn] at h; cases h
                · exact h'
              rw [ih hm2 fun g hg => hall g (by simp [hg])]
              rfl
        obtain ⟨n, rfl⟩ : ∃ n, S = n + 1 := ⟨S - 1, by omega⟩
        rw [List.range_succ_eq_map, List.foldlM_cons, htA]
        rfl
  have hm1 : s.model ≠ "OR-AND-IBP" := by rw [h4]; cases lom <;> decide
  have hm2 : s.model ≠ "MAX-AND" := by rw [h4]; cases lom <;> decide
  have hm3 : s.model ≠ "qL-AND" := by rw [h4]; cases lom <;> decide
  have hc : computeOutput argsort "mc" noisy s = .error .attributeError := by
    rw [computeOutput, if_neg hm2, if_neg hm3, hgen]
    rfl
  rw [output]
  · simp only [hm1, if_false, hc]
  · intro _ _ h; cases h

/-- the hypotheses of the three theorems hold for a machine with a 3 x 2 data matrix, with free or fixed factors -/
theorem C81_hypotheses_met (fixed : List Nat) (rnd : Nat → Nat → Rnd) :
    let wr := wiring2 true false rnd (fun _ l => l)
    let m := mach2 true false fixed
    SingleLayer wr m .XOR_NAND (layer2 true false) 2 [3, 2] ∧
    LegalWorld (layer2 true false) 2 [3, 2] (Arr.full [3, 2] 1) m.world ∧ m.anneal = false ∧
    (∀ i ∈ (layer2 true false).factors, m.trace i = none) ∧ m.lfixed 0 = false ∧
    (fixed = [] → ∀ i ∈ (layer2 true false).factors, m.fixed i = false) ∧
    (fixed = [1] → m.fixed 1 = true) := by
  obtain ⟨h1, h2, -⟩ := C47_hypotheses_met true false fixed rnd (fun _ l => l) (fun _ _ _ h => h)
  refine ⟨h1, h2, rfl, fun _ _ => rfl, rfl, ?_, ?_⟩
  · rintro rfl i hi
    simp only [layer2, List.mem_cons, List.not_mem_nil, or_false] at hi
    rcases hi with rfl | rfl <;> simp [mach2]
  · rintro rfl
    simp [mach2]

end LFM
