import Verif.Lemmas.LayerSweep
import Verif.Lemmas.Simulation
import Verif.Lemmas.Flip

/-!
# Lemmas: corresponding runs of two machines with a single layer

Rows of the factors of one machine correspond to rows of the factors of another. If sums over cells agree, so do
the updates.
-/

namespace LFM

open Spec

/-! ## Sweeps row by row -/

/-- arrays agree on row `n` -/
def AgreeRow (n : Nat) (Z Z' : Arr Int) : Prop :=
  Z.shape = Z'.shape ∧ ∀ i : List Nat, i.getD 0 0 = n → Z i = Z' i

theorem updEntry_agree {logit : Arr Int → List Nat → ℝ} (hl : RowLocal logit) {Zf : Arr Int} {rnd : Rnd} {n : Nat}
    {Z Z' : Arr Int} (h : AgreeRow n Z Z') {i : List Nat} (hi : i.getD 0 0 = n) :
    AgreeRow n (updEntry logit Zf rnd Z i) (updEntry logit Zf rnd Z' i) := by
  unfold updEntry
  split
  · exact h
  · refine ⟨h.1, fun j hj => ?_⟩
    simp only [Arr.set]
    rw [hl Z Z' i h.1 (fun j hj => h.2 j (hj.trans hi)), h.2 i hi]
    split
    · rfl
    · exact h.2 j hj

theorem updEntry_other {logit : Arr Int → List Nat → ℝ} {Zf : Arr Int} {rnd : Rnd} {n : Nat}
    {Z Z' : Arr Int} (h : AgreeRow n Z Z') {i : List Nat} (hi : i.getD 0 0 ≠ n) :
    AgreeRow n (updEntry logit Zf rnd Z i) Z' := by
  unfold updEntry
  split
  · exact h
  · refine ⟨h.1, fun j hj => ?_⟩
    simp only [Arr.set]
    split
    · rename_i hji
      subst hji
      exact absurd hj hi
    · exact h.2 j hj

/-- a row only depends on the updates of its entries -/
theorem sweep_row {logit : Arr Int → List Nat → ℝ} (hl : RowLocal logit) {Zf : Arr Int} {rnd : Rnd} (n : Nat)
    (ts : List (List Nat)) : ∀ {Z Z' : Arr Int}, AgreeRow n Z Z' →
    AgreeRow n (sweep logit Zf rnd ts Z) (sweep logit Zf rnd (ts.filter fun i => i.getD 0 0 = n) Z') := by
  induction ts with
  | nil => intro Z Z' h; exact h
  | cons i ts ih =>
    intro Z Z' h
    unfold sweep at *
    rw [List.foldl_cons]
    by_cases hi : i.getD 0 0 = n
    · rw [List.filter_cons_of_pos (by simpa using hi), List.foldl_cons]
      exact ih (updEntry_agree hl h hi)
    · rw [List.filter_cons_of_neg (by simpa using hi)]
      exact ih (updEntry_other h hi)

theorem tasks2_row {N L n : Nat} (hn : n < N) :
    (tasks2 N L).filter (fun i => i.getD 0 0 = n) = (List.range L).map fun l => [n, l] := by
  unfold tasks2
  rw [List.filter_flatMap]
  have h1 : ∀ a, ((List.range L).map fun l => [a, l]).filter (fun i => i.getD 0 0 = n) =
      if a = n then (List.range L).map fun l => [n, l] else [] := by
    intro a
    split
    · rename_i ha
      subst ha
      rw [List.filter_eq_self]
      intro i hi
      simp only [List.mem_map] at hi
      obtain ⟨l, -, rfl⟩ := hi
      simp
    · rename_i ha
      rw [List.filter_eq_nil_iff]
      intro i hi
      simp only [List.mem_map] at hi
      obtain ⟨l, -, rfl⟩ := hi
      simpa using ha
  simp only [h1]
  clear h1
  induction N with
  | zero => omega
  | succ N ih =>
    rw [List.range_succ, List.flatMap_append]
    by_cases hN : n = N
    · subst hN
      have : ((List.range n).flatMap fun a => if a = n then (List.range L).map fun l => [n, l] else []) = [] := by
        rw [List.flatMap_eq_nil_iff]
        intro a ha
        rw [if_neg (by have := List.mem_range.mp ha; omega)]
      rw [this]
      simp
    · rw [ih (by omega)]
      simp [Ne.symm hN]

/-- rows of `Z'` are rows of `Z` -/
def RowsOf (N' L : Nat) (σ : Nat → Nat) (Z Z' : Arr Int) : Prop := ∀ n < N', ∀ l < L, Z' [n, l] = Z [σ n, l]

/-- legal matrices -/
def Legal2 (N L : Nat) (Z : Arr Int) : Prop := Z.shape = [N, L] ∧ PMArr Z

theorem Legal2.set {N L n l : Nat} {Z : Arr Int} (h : Legal2 N L Z) {v : Int} (hv : IsPM v) : Legal2 N L (Z.set [n, l] v) := by
  refine ⟨h.1, fun i hi => ?_⟩
  simp only [Arr.set]
  split
  · exact hv
  · exact h.2 i hi

theorem RowsOf.set {N N' L : Nat} {σ : Nat → Nat} (hinj : ∀ a < N', ∀ b < N', σ a = σ b → a = b) {Z Z' : Arr Int}
    (h : RowsOf N' L σ Z Z') {n l : Nat} (hn : n < N') (v : Int) :
    RowsOf N' L σ (Z.set [σ n, l] v) (Z'.set [n, l] v) := by
  intro a ha b hb
  simp only [Arr.set]
  by_cases hab : a = n ∧ b = l
  · obtain ⟨rfl, rfl⟩ := hab
    simp
  · have h1 : ¬ ([a, b] = [n, l]) := by simpa using hab
    have h2 : ¬ ([σ a, b] = [σ n, l]) := by
      simp only [List.cons.injEq, and_true]
      rintro ⟨e1, e2⟩
      exact hab ⟨hinj a ha n hn e1, e2⟩
    rw [if_neg h1, if_neg h2]
    exact h a ha b hb

theorem updEntry_legal {N L : Nat} {logit : Arr Int → List Nat → ℝ} {Zf : Arr Int} {rnd : Rnd} {Z : Arr Int}
    (h : Legal2 N L Z) {n l : Nat} (hn : n < N) (hl : l < L) : Legal2 N L (updEntry logit Zf rnd Z [n, l]) := by
  unfold updEntry
  split
  · exact h
  · exact h.set (isPM_flip _ (h.2 _ (by rw [h.1]; exact ⟨hn, hl, trivial⟩)) _)

/-- corresponding sweeps -/
theorem sweep_rows {N N' L : Nat} {σ : Nat → Nat} (hmap : ∀ n < N', σ n < N)
    (hinj : ∀ a < N', ∀ b < N', σ a = σ b → a = b) {logit logit' : Arr Int → List Nat → ℝ} (hl : RowLocal logit)
    (hl' : RowLocal logit')
    (hlog : ∀ Z Z', Legal2 N L Z → Legal2 N' L Z' → RowsOf N' L σ Z Z' → ∀ n < N', ∀ l < L,
      logit' Z' [n, l] = logit Z [σ n, l]) {Zf Zf' : Arr Int} {rnd rnd' : Rnd}
    (hfix : ∀ n < N', ∀ l < L, (Zf' [n, l] = 1 ↔ Zf [σ n, l] = 1))
    (hrnd : ∀ n < N', ∀ l < L, rnd' [n, l] = rnd [σ n, l]) {Z Z' : Arr Int} (hZ : Legal2 N L Z) (hZ' : Legal2 N' L Z')
    (h : RowsOf N' L σ Z Z') :
    RowsOf N' L σ (sweep logit Zf rnd (tasks2 N L) Z) (sweep logit' Zf' rnd' (tasks2 N' L) Z') := by
  intro n hn l hl0
  have e1 := (sweep_row hl (Zf := Zf) (rnd := rnd) (σ n) (tasks2 N L) (Z := Z) ⟨rfl, fun _ _ => rfl⟩).2 [σ n, l] rfl
  have e2 := (sweep_row hl' (Zf := Zf') (rnd := rnd') n (tasks2 N' L) (Z := Z') ⟨rfl, fun _ _ => rfl⟩).2 [n, l] rfl
  rw [e1, e2, tasks2_row hn, tasks2_row (hmap n hn)]
  suffices ∀ ls : List Nat, (∀ b ∈ ls, b < L) → ∀ A A' : Arr Int, Legal2 N L A → Legal2 N' L A' → RowsOf N' L σ A A' →
      RowsOf N' L σ (sweep logit Zf rnd (ls.map fun l => [σ n, l]) A) (sweep logit' Zf' rnd' (ls.map fun l => [n, l]) A') from
    this (List.range L) (fun b hb => List.mem_range.mp hb) Z Z' hZ hZ' h n hn l hl0
  intro ls
  induction ls with
  | nil => intro _ A A' _ _ h; exact h
  | cons b ls ih =>
    intro hb A A' hA hA' hAA
    have hbL := hb b (by simp)
    unfold sweep at *
    rw [List.map_cons, List.map_cons, List.foldl_cons, List.foldl_cons]
    refine ih (fun c hc => hb c (by simp [hc])) _ _ (updEntry_legal hA (hmap n hn) hbL) (updEntry_legal hA' hn hbL) ?_
    unfold updEntry
    by_cases hf : Zf [σ n, b] = 1
    · rw [if_pos hf, if_pos ((hfix n hn b hbL).mpr hf)]
      exact hAA
    · rw [if_neg hf, if_neg fun h => hf ((hfix n hn b hbL).mp h)]
      rw [hlog A A' hA hA' hAA n hn b hbL, hAA n hn b hbL, hrnd n hn b hbL]
      exact hAA.set (N := N) hinj hn _

/-! ## Sums over cells -/

namespace Spec

/-- sum over the cells of the data `X` of a function of the value of the cell and of its prediction from these factors -/
noncomputable def cellSum (lom : Lom8) (φ : Int → Int → Int) (fs : List (Arr Int)) (X : Arr Int) : Int :=
  match fs with
  | [Z, U] => ∑ n : Fin (X.dim 0), ∑ d : Fin (X.dim 1),
      φ (X [n, d]) (pred2 lom (Z.dim 1) (fun l => Z [n, l]) (fun l => U [d, l]))
  | [Z, U, V] => ∑ n : Fin (X.dim 0), ∑ d : Fin (X.dim 1), ∑ k : Fin (X.dim 2),
      φ (X [n, d, k]) (pred3 lom (Z.dim 1) (fun l => Z [n, l]) (fun l => U [d, l]) (fun l => V [k, l]))
  | _ => 0

end Spec

theorem agreementOf_eq (lom : Lom8) (fs : List (Arr Int)) (X : Arr Int) :
    agreementOf lom fs X = cellSum lom (fun x p => x * p) fs X := by
  match fs with
  | [] => rfl
  | [_] => rfl
  | [Z, U] => rfl
  | [Z, U, V] => rfl
  | _ :: _ :: _ :: _ :: _ => rfl

open Classical in
theorem correctCells_eq (lom : Lom8) (fs : List (Arr Int)) (X : Arr Int) :
    (correctCells lom fs X : Int) = cellSum lom (fun x p => if x ≠ 0 ∧ x = p then 1 else 0) fs X := by
  have key : ∀ x p : Int, IsPM p → (x = p ↔ x ≠ 0 ∧ x = p) := by
    intro x p hp
    refine ⟨fun h => ⟨?_, h⟩, fun h => h.2⟩
    rintro rfl
    rcases hp with hp | hp <;> omega
  match fs with
  | [] => rfl
  | [_] => rfl
  | [Z, U] =>
    simp only [correctCells, cellSum, correct2, Finset.card_filter]
    push_cast
    rw [Fintype.sum_prod_type]
    refine Finset.sum_congr rfl fun n _ => Finset.sum_congr rfl fun d _ => ?_
    simp only [← key _ _ (isPM_pred2 _ _ _ _)]
  | [Z, U, V] =>
    simp only [correctCells, cellSum, correct3, Finset.card_filter]
    push_cast
    simp only [Fintype.sum_prod_type]
    refine Finset.sum_congr rfl fun n _ => Finset.sum_congr rfl fun d _ => Finset.sum_congr rfl fun k _ => ?_
    have : IsPM (pred3 lom (Z.dim 1) (fun l => Z [n, l]) (fun l => U [d, l]) (fun l => V [k, l])) := isPM_pm _
    simp only [← key _ _ this]
  | _ :: _ :: _ :: _ :: _ => rfl

open Classical in
theorem observedCells_eq (lom : Lom8) (fs : List (Arr Int)) (X : Arr Int) (h : fs.length = X.shape.length)
    (h2 : fs.length = 2 ∨ fs.length = 3) :
    (observedCells X : Int) = cellSum lom (fun x _ => if x ≠ 0 then 1 else 0) fs X := by
  match fs, h2 with
  | [Z, U], _ =>
    obtain ⟨N, D, hND⟩ := List.length_eq_two.mp h.symm
    obtain ⟨sh, g⟩ := X
    obtain rfl : sh = [N, D] := hND
    simp only [observedCells, cellSum, observed2, Finset.card_filter, Arr.dim]
    push_cast
    rw [Fintype.sum_prod_type]
    rfl
  | [Z, U, V], _ =>
    obtain ⟨N, D, M, hND⟩ := List.length_eq_three.mp h.symm
    obtain ⟨sh, g⟩ := X
    obtain rfl : sh = [N, D, M] := hND
    simp only [observedCells, cellSum, observed3, Finset.card_filter, Arr.dim]
    push_cast
    simp only [Fintype.sum_prod_type]
    rfl

/-! ## Corresponding machines -/

/-- length of matrix `i` of a layer -/
def rowsOf (lr : LayerInfo) (sizes : List Nat) (i : Nat) : Nat := sizes.getD (lr.factors.idxOf i) 0

/-- rows `σ i` of the factors of the first layer are those of the factors of the second; sums over cells agree -/
structure Corr (lom : Lom8) (lr lr' : LayerInfo) (sizes sizes' : List Nat) (X X' : Arr Int) (L : Nat) (σ : Nat → Nat → Nat) :
    Prop where
  mem : ∀ i, i ∈ lr'.factors ↔ i ∈ lr.factors
  map : ∀ i ∈ lr.factors, ∀ n < rowsOf lr' sizes' i, σ i n < rowsOf lr sizes i
  inj : ∀ i ∈ lr.factors, ∀ a < rowsOf lr' sizes' i, ∀ b < rowsOf lr' sizes' i, σ i a = σ i b → a = b
  sums : ∀ φ : Int → Int → Int, (∀ p, φ 0 p = 0) → ∀ F F' : Nat → Arr Int,
    (∀ i ∈ lr.factors, Legal2 (rowsOf lr sizes i) L (F i) ∧ Legal2 (rowsOf lr' sizes' i) L (F' i) ∧
      RowsOf (rowsOf lr' sizes' i) L (σ i) (F i) (F' i)) →
    cellSum lom φ (lr'.factors.map F') X' = cellSum lom φ (lr.factors.map F) X

/-- corresponding worlds -/
structure WRel (lr lr' : LayerInfo) (x x' : Nat) (sizes sizes' : List Nat) (X X' : Arr Int) (L : Nat) (σ : Nat → Nat → Nat)
    (w w' : World) : Prop where
  facs : ∀ i ∈ lr.factors, Legal2 (rowsOf lr sizes i) L (w.mat i).val ∧ Legal2 (rowsOf lr' sizes' i) L (w'.mat i).val ∧
    RowsOf (rowsOf lr' sizes' i) L (σ i) (w.mat i).val (w'.mat i).val
  fixed : ∀ i ∈ lr.factors, ∀ n < rowsOf lr' sizes' i, ∀ l < L,
    ((w'.mat i).fixed_entries [n, l] = 1 ↔ (w.mat i).fixed_entries [σ i n, l] = 1)
  data : (w.mat x).val = X
  data' : (w'.mat x').val = X'
  lbda : ∃ y, w.lbda 0 = .scalar (.fin y) ∧ w'.lbda 0 = .scalar (.fin y)

theorem WRel.legal {lr lr' : LayerInfo} {x x' : Nat} {sizes sizes' : List Nat} {X X' : Arr Int} {L : Nat}
    {σ : Nat → Nat → Nat} {w w' : World} (hnd : lr.factors.Nodup) (h : WRel lr lr' x x' sizes sizes' X X' L σ w w') :
    LegalFacs sizes L (lr.factors.map w.mat) := by
  intro j f hf
  rw [List.getElem?_map, Option.map_eq_some_iff] at hf
  obtain ⟨i, hi, rfl⟩ := hf
  obtain ⟨hj, hji⟩ := List.getElem?_eq_some_iff.mp hi
  have h1 := (h.facs i (List.mem_of_getElem? hi)).1
  have : lr.factors.idxOf i = j := by rw [← hji]; exact hnd.idxOf_getElem j hj
  rw [← this]
  exact h1

theorem WRel.legal' {lr lr' : LayerInfo} {x x' : Nat} {sizes sizes' : List Nat} {X X' : Arr Int} {L : Nat}
    {σ : Nat → Nat → Nat} {w w' : World} (hnd : lr'.factors.Nodup) (hm : ∀ i, i ∈ lr'.factors ↔ i ∈ lr.factors)
    (h : WRel lr lr' x x' sizes sizes' X X' L σ w w') :
    LegalFacs sizes' L (lr'.factors.map w'.mat) := by
  intro j f hf
  rw [List.getElem?_map, Option.map_eq_some_iff] at hf
  obtain ⟨i, hi, rfl⟩ := hf
  obtain ⟨hj, hji⟩ := List.getElem?_eq_some_iff.mp hi
  have h1 := (h.facs i ((hm i).mp (List.mem_of_getElem? hi))).2.1
  have : lr'.factors.idxOf i = j := by rw [← hji]; exact hnd.idxOf_getElem j hj
  rw [← this]
  exact h1

theorem belongsTo_unique {lom : Lom8} {fs fs' : List (Arr Int)} {X X' : Arr Int} {a b y y' : ℝ}
    (h : BelongsTo lom fs X a b y) (h' : BelongsTo lom fs' X' a b y') (e1 : correctCells lom fs' X' = correctCells lom fs X)
    (e2 : observedCells X' = observedCells X) : y' = y := by
  have := h.2.trans (by rw [h'.2, e1, e2] : sigmoid y' = _).symm
  unfold sigmoid at this
  have e : Real.exp (-y) = Real.exp (-y') := by
    have p1 := Real.exp_pos (-y)
    have p2 := Real.exp_pos (-y')
    field_simp at this
    linarith
  linarith [Real.exp_injective e]

namespace Corr

variable {wr wr' : Wiring} {m m' : Mach Sampler LbdaUpdate} {lom : Lom8} {lr lr' : LayerInfo} {x x' : Nat}
  {sizes sizes' : List Nat} {X X' : Arr Int} {L : Nat} {σ : Nat → Nat → Nat}

/-- corresponding updates of factors -/
theorem mat (C : Corr lom lr lr' sizes sizes' X X' L σ) (H : SingleLayer wr m lom lr x sizes)
    (H' : SingleLayer wr' m' lom lr' x' sizes') (hX : X.shape = sizes) (hX' : X'.shape = sizes') (hd : DataArr X)
    (hd' : DataArr X') (hfit : ScoresFit sizes) (hfit' : ScoresFit sizes') {i : Nat} (hi : i ∈ lr.factors) {q : ℝ}
    {s s' : Sampler} (hs : AxisSampler lom lr.factors.length (lr.factors.idxOf i) q s)
    (hs' : AxisSampler lom lr'.factors.length (lr'.factors.idxOf i) q s') (t : Nat)
    (hrnd : ∀ n < rowsOf lr' sizes' i, ∀ l < L, wr'.rnd t i [n, l] = wr.rnd t i [σ i n, l]) {w w' : World}
    (hw : WRel lr lr' x x' sizes sizes' X X' L σ w w') :
    Sims (WRel lr lr' x x' sizes sizes' X X' L σ) (runSampler wr s i t w) (runSampler wr' s' i t w') := by
  have hi' := (C.mem i).mpr hi
  obtain ⟨y, hy, hy'⟩ := hw.lbda
  obtain ⟨S, r1, r2, r3⟩ := H.sweeps hX hd hfit hi hs t (hw.legal H.nodup) hw.data hy
  obtain ⟨S', r1', r2', r3'⟩ := H'.sweeps hX' hd' hfit' hi' hs' t (hw.legal' H'.nodup C.mem) hw.data' hy'
  obtain ⟨R, k1, k2, k3, -⟩ := H.runs_mat hi hs.generic t ⟨y, hy⟩
  obtain ⟨R', k1', k2', k3', -⟩ := H'.runs_mat hi' hs'.generic t ⟨y, hy'⟩
  obtain ⟨f1, f2, f3⟩ := hw.facs i hi
  have eR : ∀ {w : World} {A B : Arr Int}, (Except.ok (w.setVal i A) : Except Err World) = .ok (w.setVal i B) → A = B := by
    intro w A B h
    simp only [Except.ok.injEq] at h
    have := congrArg (fun w : World => (w.mat i).val) h
    simpa [World.setVal, upd] using this
  have hR := eR (k1.symm.trans r3)
  have hR' := eR (k1'.symm.trans r3')
  rw [k1, k1']
  refine Sims.ok ⟨?_, ?_, ?_, ?_, ⟨y, hy, hy'⟩⟩
  · intro j hj
    by_cases hji : j = i
    · subst hji
      simp only [World.setVal, upd, if_true]
      refine ⟨⟨k2.trans f1.1, k3 f1.2⟩, ⟨k2'.trans f2.1, k3' f2.2⟩, ?_⟩
      rw [hR, hR']
      refine sweep_rows (C.map j hj) (C.inj j hj) (rowLocal_score r1 y (logit q)) (rowLocal_score r1' y (logit q)) ?_
        (hw.fixed j hj) hrnd f1 f2 f3
      intro Z Z' hZ hZ' hZZ n hn l hl
      have h1 := r2 Z hZ.1 hZ.2 (σ j n) l (C.map j hj n hn) hl
      have h2 := r2' Z' hZ'.1 hZ'.2 n l hn hl
      have hsum : ∀ v : Int, IsPM v → agreementOf lom (SingleLayer.valsWith lr' w' j (Z'.set [n, l] v)) X' =
          agreementOf lom (SingleLayer.valsWith lr w j (Z.set [σ j n, l] v)) X := by
        intro v hv
        rw [agreementOf_eq, agreementOf_eq]
        refine C.sums _ (fun p => zero_mul p) _ _ fun a ha => ?_
        by_cases haj : a = j
        · subst haj
          simp only [if_true]
          exact ⟨hZ.set hv, hZ'.set hv, hZZ.set (N := rowsOf lr sizes a) (C.inj a ha) hn v⟩
        · simp only [haj, if_false]
          exact hw.facs a ha
      rw [hsum 1 (.inl rfl), hsum (-1) (.inr rfl)] at h2
      have hS : S' Z' n l = S Z (σ j n) l := by omega
      simp only [i0, i1, List.getD_cons_zero, List.getD_cons_succ, hS]
    · simp only [World.setVal, upd, hji, if_false]
      exact hw.facs j hj
  · intro j hj
    by_cases hji : j = i
    · subst hji
      simp only [World.setVal, upd, if_true]
      exact hw.fixed j hj
    · simp only [World.setVal, upd, hji, if_false]
      exact hw.fixed j hj
  · have : x ≠ i := fun h => H.data (h ▸ hi)
    simp [World.setVal, upd, this, hw.data]
  · have : x' ≠ i := fun h => H'.data (h ▸ hi')
    simp [World.setVal, upd, this, hw.data']

/-- corresponding updates of lambda -/
theorem lbda (C : Corr lom lr lr' sizes sizes' X X' L σ) (H : SingleLayer wr m lom lr x sizes)
    (H' : SingleLayer wr' m' lom lr' x' sizes') (hX : X.shape = sizes) (hX' : X'.shape = sizes')
    (hb : wr'.beta_prior 0 = wr.beta_prior 0) {g g' : LbdaUpdate}
    (hg : get_update_fct none lom.name lr.factors.length = .ok g)
    (hg' : get_update_fct none lom.name lr'.factors.length = .ok g') (t : Nat) {w w' : World}
    (hw : WRel lr lr' x x' sizes sizes' X X' L σ w w') :
    Sims (WRel lr lr' x x' sizes sizes' X X' L σ) (runUpdate wr g 0 t w) (runUpdate wr' g' 0 t w') := by
  obtain ⟨y, hy, hy'⟩ := hw.lbda
  have l1 : LegalWorld lr x sizes X w := ⟨⟨L, hw.legal H.nodup⟩, hw.data, y, hy⟩
  have l2 : LegalWorld lr' x' sizes' X' w' := ⟨⟨L, hw.legal' H'.nodup C.mem⟩, hw.data', y, hy'⟩
  obtain ⟨z, z1, z2⟩ := H.runs_lbda_value hg t l1 hX
  obtain ⟨z', z1', z2'⟩ := H'.runs_lbda_value hg' t l2 hX'
  rw [hb] at z1'
  have hc : correctCells lom (lr'.factors.map fun i => (w'.mat i).val) X' =
      correctCells lom (lr.factors.map fun i => (w.mat i).val) X := by
    have := C.sums (open Classical in fun x p => if x ≠ 0 ∧ x = p then 1 else 0) (fun p => by simp)
      (fun i => (w.mat i).val) (fun i => (w'.mat i).val) hw.facs
    rw [← correctCells_eq, ← correctCells_eq] at this
    exact_mod_cast this
  have ho : observedCells X' = observedCells X := by
    have := C.sums (open Classical in fun x p => if x ≠ 0 then 1 else 0) (fun p => by simp)
      (fun i => (w.mat i).val) (fun i => (w'.mat i).val) hw.facs
    rw [← observedCells_eq, ← observedCells_eq] at this
    · exact_mod_cast this
    · rw [List.length_map, hX, H.sizes]
    · rw [List.length_map]; exact H.arity
    · rw [List.length_map, hX', H'.sizes]
    · rw [List.length_map]; exact H'.arity
  obtain rfl := belongsTo_unique z1 z1' hc ho
  rw [z2, z2']
  exact Sims.ok ⟨hw.facs, hw.fixed, hw.data, hw.data', z', by simp [upd], by simp [upd]⟩

end Corr

end LFM
