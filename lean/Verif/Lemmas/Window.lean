import Verif.Lemmas.BurnIn

/-!
# Lemmas about the trace window of burn-in

Two runs of burn-in that differ only in the contents of newly allocated memory.
-/

namespace LFM

variable {F G : Type}

/-! ## Traces row by row -/

/-- scalar, or vector of some length -/
def LVal.kind : LVal → Option Nat
  | .scalar _ => none
  | .vector xs => some xs.length

def LTrace.kind : LTrace → Option Nat
  | .scalars _ => none
  | .vectors c _ => some c

def LTrace.len : LTrace → Nat
  | .scalars xs => xs.length
  | .vectors _ rows => rows.length

def LTrace.row : LTrace → Nat → Option LVal
  | .scalars xs, r => xs[r]?.map .scalar
  | .vectors _ rows, r => rows[r]?.map .vector

theorem allocL_kind (junk : Nat → Nat → NpF) (n : Nat) (v : LVal) : (allocL junk n v).kind = v.kind := by
  cases v <;> rfl

theorem allocL_len (junk : Nat → Nat → NpF) (n : Nat) (v : LVal) : (allocL junk n v).len = n := by
  cases v <;> simp [allocL, LTrace.len]

theorem allocL_row (junk junk' : Nat → Nat → NpF) (n : Nat) (v : LVal) (r : Nat) (h : ∀ c, junk r c = junk' r c) :
    (allocL junk n v).row r = (allocL junk' n v).row r := by
  cases v with
  | scalar x =>
    simp only [allocL, LTrace.row, List.getElem?_map]
    by_cases hr : r < n
    · rw [List.getElem?_range hr]
      simp [h]
    · rw [List.getElem?_eq_none (by simpa using hr)]
      rfl
  | vector xs =>
    simp only [allocL, LTrace.row, List.getElem?_map]
    by_cases hr : r < n
    · rw [List.getElem?_range hr]
      simp [h]
    · rw [List.getElem?_eq_none (by simpa using hr)]
      rfl

/-- same type and dimensions, and the same rows where `P` holds -/
structure Agree (P : Nat → Prop) (t t' : LTrace) : Prop where
  kind : t'.kind = t.kind
  len : t'.len = t.len
  rows : ∀ r, P r → t'.row r = t.row r

theorem Agree.weaken {P Q : Nat → Prop} {t t' : LTrace} (h : Agree P t t') (hq : ∀ r, Q r → P r) : Agree Q t t' :=
  ⟨h.kind, h.len, fun r hr => h.rows r (hq r hr)⟩

/-- traces agreeing on all their rows are equal -/
theorem Agree.eq {P : Nat → Prop} {t t' : LTrace} (h : Agree P t t') (hP : ∀ r < t.len, P r) : t' = t := by
  have hrow : ∀ r, t'.row r = t.row r := by
    intro r
    by_cases hr : r < t.len
    · exact h.rows r (hP r hr)
    · have h1 : t.row r = none := by
        cases t <;> simp_all [LTrace.row, LTrace.len]
      have h2 : t'.row r = none := by
        have hr' := h.len ▸ hr
        clear h h1 hr
        cases t' <;> simp_all [LTrace.row, LTrace.len]
      rw [h1, h2]
  cases t with
  | scalars xs =>
    cases t' with
    | scalars ys =>
      congr 1
      apply List.ext_getElem?
      intro r
      have := hrow r
      simp only [LTrace.row] at this
      cases hx : xs[r]? <;> cases hy : ys[r]? <;> simp_all
    | vectors c ys => have := h.kind; simp [LTrace.kind] at this
  | vectors c xs =>
    cases t' with
    | scalars ys => have := h.kind; simp [LTrace.kind] at this
    | vectors c' ys =>
      have hc := h.kind
      simp only [LTrace.kind, Option.some.injEq] at hc
      subst hc
      congr 1
      apply List.ext_getElem?
      intro r
      have := hrow r
      simp only [LTrace.row] at this
      cases hx : xs[r]? <;> cases hy : ys[r]? <;> simp_all

/-- a write either fails in both, or makes the traces agree in that row -/
theorem writeL_agree {P : Nat → Prop} {t t' : LTrace} (h : Agree P t t') (k : Nat) (v : LVal) :
    (∃ e, writeL t k v = .error e ∧ writeL t' k v = .error e) ∨
    (∃ u u', writeL t k v = .ok u ∧ writeL t' k v = .ok u' ∧ Agree (fun r => P r ∨ r = k) u u' ∧
      u.len = t.len ∧ u.kind = t.kind) := by
  obtain ⟨hk, hl, hr⟩ := h
  cases t with
  | scalars xs =>
    cases t' with
    | vectors c ys => simp [LTrace.kind] at hk
    | scalars ys =>
      simp only [LTrace.len] at hl
      cases v with
      | vector zs => left; simp only [writeL, hl]; split <;> exact ⟨_, rfl, rfl⟩
      | scalar x =>
        by_cases hkl : k < xs.length
        · right
          refine ⟨.scalars (xs.set k x), .scalars (ys.set k x), by rw [writeL, if_pos hkl],
            by rw [writeL, if_pos (hl ▸ hkl)], ⟨rfl, by simp [LTrace.len, hl], ?_⟩,
            by simp [LTrace.len], rfl⟩
          intro r hr'
          simp only [LTrace.row, List.getElem?_set, hl]
          by_cases hrk : k = r
          · simp [hrk]
          · simp only [hrk, if_false]
            exact hr r (hr'.resolve_right fun h => hrk h.symm)
        · left
          exact ⟨_, by rw [writeL, if_neg hkl], by rw [writeL, if_neg (hl ▸ hkl)]⟩
  | vectors c xs =>
    cases t' with
    | scalars ys => simp [LTrace.kind] at hk
    | vectors c' ys =>
      simp only [LTrace.kind, Option.some.injEq] at hk
      subst hk
      simp only [LTrace.len] at hl
      by_cases hkl : k < xs.length
      · cases v with
        | scalar x =>
          right
          refine ⟨.vectors c' (xs.set k (List.replicate c' x)), .vectors c' (ys.set k (List.replicate c' x)),
            by rw [writeL, if_pos hkl], by rw [writeL, if_pos (hl ▸ hkl)], ⟨rfl, by simp [LTrace.len, hl], ?_⟩,
            by simp [LTrace.len], rfl⟩
          intro r hr'
          simp only [LTrace.row, List.getElem?_set, hl]
          by_cases hrk : k = r
          · simp [hrk]
          · simp only [hrk, if_false]
            exact hr r (hr'.resolve_right fun h => hrk h.symm)
        | vector zs =>
          by_cases hz : zs.length = c'
          · right
            refine ⟨.vectors c' (xs.set k zs), .vectors c' (ys.set k zs), by rw [writeL, if_pos hkl, if_pos hz], by rw [writeL, if_pos (hl ▸ hkl), if_pos hz],
              ⟨rfl, by simp [LTrace.len, hl], ?_⟩, by simp [LTrace.len], rfl⟩
            intro r hr'
            simp only [LTrace.row, List.getElem?_set, hl]
            by_cases hrk : k = r
            · simp [hrk]
            · simp only [hrk, if_false]
              exact hr r (hr'.resolve_right fun h => hrk h.symm)
          · left
            exact ⟨_, by rw [writeL, if_pos hkl, if_neg hz], by rw [writeL, if_pos (hl ▸ hkl), if_neg hz]⟩
      · left
        cases v with
        | scalar x => exact ⟨_, by rw [writeL, if_neg hkl], by rw [writeL, if_neg (hl ▸ hkl)]⟩
        | vector zs => exact ⟨_, by rw [writeL, if_neg hkl], by rw [writeL, if_neg (hl ▸ hkl)]⟩

/-- a value of the kind of the trace can be written to a row of the trace -/
theorem writeL_ok {t : LTrace} {k : Nat} {v : LVal} (hk : k < t.len) (hv : t.kind = v.kind) :
    ∃ t', writeL t k v = .ok t' ∧ t'.len = t.len ∧ t'.kind = t.kind := by
  cases t with
  | scalars xs =>
    cases v with
    | scalar x =>
      simp only [LTrace.len] at hk
      exact ⟨.scalars (xs.set k x), by rw [writeL, if_pos hk], by simp [LTrace.len], rfl⟩
    | vector ys => simp [LTrace.kind, LVal.kind] at hv
  | vectors c xs =>
    cases v with
    | scalar x => simp [LTrace.kind, LVal.kind] at hv
    | vector ys =>
      simp only [LTrace.len] at hk
      simp only [LTrace.kind, LVal.kind, Option.some.injEq] at hv
      exact ⟨.vectors c (xs.set k ys), by rw [writeL, if_pos hk, if_pos hv.symm], by simp [LTrace.len], rfl⟩

/-! ## The same machine with other traces of its parameters -/

/-- other traces -/
def withL (t : Nat → Option LTrace) (m : Mach F G) : Mach F G := { m with ltrace := t }

theorem sampleMats_withL (env : Env F G) (mats : List Nat) (t : Nat → Option LTrace) (m : Mach F G) :
    sampleMats env mats (withL t m) = (sampleMats env mats m).map (withL t) := by
  rw [sampleMats_eq, sampleMats_eq]
  show sweepM env m.fct mats m.clock m.world >>= _ = _
  cases sweepM env m.fct mats m.clock m.world <;> rfl

theorem sampleLbdas_withL (env : Env F G) (lbdas : List Nat) (t : Nat → Option LTrace) (m : Mach F G) :
    sampleLbdas env lbdas (withL t m) = (sampleLbdas env lbdas m).map (withL t) := by
  rw [sampleLbdas_eq, sampleLbdas_eq]
  show sweepL env m.lfct lbdas m.clock m.world >>= _ = _
  cases sweepL env m.lfct lbdas m.clock m.world <;> rfl

theorem cleanLayer_withL (reset clean : Bool) (t : Nat → Option LTrace) (m : Mach F G) (lr : LayerInfo) :
    cleanLayer reset clean (withL t m) lr = (cleanLayer reset clean m lr).map fun r => (withL t r.1, r.2) := by
  rw [cleanLayer, cleanLayer]
  show clean_up_codes (lr.factors.map m.world.mat) reset clean >>= _ = _
  cases clean_up_codes (lr.factors.map m.world.mat) reset clean <;> rfl

theorem autoClean_withL (t : Nat → Option LTrace) (lrs : List LayerInfo) (m : Mach F G) :
    autoClean lrs (withL t m) = (autoClean lrs m).map fun r => (withL t r.1, r.2) := by
  induction lrs generalizing m with
  | nil => rfl
  | cons lr lrs ih =>
    rw [autoClean, autoClean]
    split
    · rw [cleanLayer_withL]
      cases cleanLayer lr.auto_reset lr.auto_clean m lr with
      | error e => rfl
      | ok r =>
        show (autoClean lrs (withL t r.1) >>= _) = _
        rw [ih]
        show _ = Except.map _ (autoClean lrs r.1 >>= _)
        cases autoClean lrs r.1 <;> rfl
    · exact ih m

theorem finalClean_withL (t : Nat → Option LTrace) (lrs : List LayerInfo) (m : Mach F G) :
    finalClean lrs (withL t m) = (finalClean lrs m).map (withL t) := by
  induction lrs generalizing m with
  | nil => rfl
  | cons lr lrs ih =>
    rw [finalClean, finalClean]
    split
    · rw [cleanLayer_withL]
      cases cleanLayer false true m lr with
      | error e => rfl
      | ok r => exact ih r.1
    · exact ih m

theorem stopStep_withL (t : Nat → Option LTrace) (lbdas : List Nat) (iter : Nat) (m : Mach F G) :
    stopStep lbdas iter (withL t m) = (stopStep lbdas iter m).map (withL t) := by
  rw [stopStep, stopStep]
  show finalClean m.layers (withL t m) >>= _ = _
  rw [finalClean_withL]
  cases finalClean m.layers m <;> rfl

theorem allConverged_congr (eps : ℝ) (m m' : Mach F G) (ks : List Nat) (h : ∀ k ∈ ks, m'.ltrace k = m.ltrace k) :
    allConverged eps m' ks = allConverged eps m ks := by
  induction ks with
  | nil => rfl
  | cons k ks ih => rw [allConverged, allConverged, h k (by simp), ih fun x hx => h x (by simp [hx])]

/-! ## Two runs -/

/-- the traces of `ks` agree in the rows `P k`, have `cw` rows; the index of `k` is `ix k` -/
def Twin (ks : List Nat) (cw : Nat) (ix : Nat → Nat) (P : Nat → Nat → Prop) (t : Nat → Option LTrace) (m : Mach F G) :
    Prop :=
  ∀ k ∈ ks, m.ltrace_index k = ix k ∧ ∃ u u', m.ltrace k = some u ∧ t k = some u' ∧ Agree (P k) u u' ∧ u.len = cw

theorem updateTracesL_twin {cw : Nat} {ix : Nat → Nat} {P : Nat → Nat → Prop} (ks : List Nat) :
    ∀ {t : Nat → Option LTrace} {m : Mach F G}, ks.Nodup → Twin ks cw ix P t m →
    (∃ e, ks.foldlM updateTraceL m = .error e ∧ ks.foldlM updateTraceL (withL t m) = .error e) ∨
    (∃ n t', ks.foldlM updateTraceL m = .ok n ∧ ks.foldlM updateTraceL (withL t m) = .ok (withL t' n) ∧
      Twin ks cw (fun k => ix k + 1) (fun k r => P k r ∨ r = ix k) t' n ∧
      (∀ k ∉ ks, n.ltrace_index k = m.ltrace_index k ∧ n.ltrace k = m.ltrace k ∧ t' k = t k)) := by
  induction ks with
  | nil =>
    intro t m _ _
    refine .inr ⟨m, t, rfl, rfl, ?_, fun k _ => ⟨rfl, rfl, rfl⟩⟩
    intro k hk
    simp at hk
  | cons k ks ih =>
    intro t m hnd htw
    obtain ⟨hix, u, u', hu, hu', ha, hlen⟩ := htw k (by simp)
    have hnd' := List.nodup_cons.mp hnd
    rw [List.foldlM_cons, List.foldlM_cons]
    have e1 : updateTraceL m k = writeL u (ix k) (m.world.lbda k) >>= fun t' =>
        pure { m with ltrace := upd m.ltrace k (some t'),
                      ltrace_index := upd m.ltrace_index k (m.ltrace_index k + 1) } := by
      rw [updateTraceL, hu, ← hix]
    have e2 : updateTraceL (withL t m) k = writeL u' (ix k) (m.world.lbda k) >>= fun t' =>
        pure (withL (upd t k (some t'))
          { m with ltrace_index := upd m.ltrace_index k (m.ltrace_index k + 1) }) := by
      rw [updateTraceL]
      show (match t k with | none => _ | some t => _) = _
      rw [hu', ← hix]
      rfl
    rcases writeL_agree ha (ix k) (m.world.lbda k) with ⟨e, h1, h2⟩ | ⟨v, v', h1, h2, hav, hvl, -⟩
    · left
      exact ⟨e, by rw [e1, h1]; rfl, by rw [e2, h2]; rfl⟩
    · rw [e1, h1, e2, h2]
      obtain ⟨m1, hm1⟩ : ∃ m1 : Mach F G, m1 = { m with
        ltrace := upd m.ltrace k (some v), ltrace_index := upd m.ltrace_index k (m.ltrace_index k + 1) } := ⟨_, rfl⟩
      have hw : Twin ks cw ix P (upd t k (some v')) m1 := by
        intro j hj
        have hjk : j ≠ k := fun h => hnd'.1 (h ▸ hj)
        obtain ⟨a, b, b', c, d, e, f⟩ := htw j (by simp [hj])
        refine ⟨?_, b, b', ?_, ?_, e, f⟩
        · rw [hm1]; simp [upd, hjk, a]
        · rw [hm1]; simp [upd, hjk, c]
        · simp [upd, hjk, d]
      have key := ih hnd'.2 hw
      have s1 : (Except.ok v >>= fun t' => (pure { m with
          ltrace := upd m.ltrace k (some t'),
          ltrace_index := upd m.ltrace_index k (m.ltrace_index k + 1) } : Except Err (Mach F G))) = .ok m1 := by
        rw [hm1]; rfl
      have s2 : (Except.ok v' >>= fun t' => (pure (withL (upd t k (some t'))
          { m with ltrace_index := upd m.ltrace_index k (m.ltrace_index k + 1) }) : Except Err (Mach F G))) =
          .ok (withL (upd t k (some v')) m1) := by
        rw [hm1]; rfl
      rw [s1, s2]
      show (∃ e, ks.foldlM updateTraceL m1 = .error e ∧ ks.foldlM updateTraceL (withL (upd t k (some v')) m1) = .error e) ∨
        (∃ n t', ks.foldlM updateTraceL m1 = .ok n ∧
          ks.foldlM updateTraceL (withL (upd t k (some v')) m1) = .ok (withL t' n) ∧ _ ∧ _)
      rcases key with h | ⟨n, t', g1, g2, g3, g4⟩
      · exact .inl h
      · refine .inr ⟨n, t', g1, g2, ?_, ?_⟩
        · intro j hj
          by_cases hjk : j = k
          · subst hjk
            obtain ⟨a, b, c⟩ := g4 j hnd'.1
            refine ⟨?_, v, v', ?_, ?_, hav, by rw [hvl, hlen]⟩
            · rw [a, hm1]; simp [upd, hix]
            · rw [b, hm1]; simp [upd]
            · rw [c]; simp [upd]
          · exact g3 j (by simpa [hjk] using hj)
        · intro j hj
          simp only [List.mem_cons, not_or] at hj
          obtain ⟨a, b, c⟩ := g4 j hj.2
          refine ⟨?_, ?_, ?_⟩
          · rw [a, hm1]; simp [upd, hj.1]
          · rw [b, hm1]; simp [upd, hj.1]
          · rw [c]; simp [upd, hj.1]

/-- index of the window at the beginning of a turn, and after the check of that turn -/
def ixBefore (cw iter : Nat) : Nat := if iter ≤ cw then iter - 1 else (iter - 1) % cw + 1
def ixAfter (cw iter : Nat) : Nat := if iter % cw = 0 then 0 else ixBefore cw iter

theorem ixBefore_succ (cw iter : Nat) (hc : 1 ≤ cw) (hi : 1 ≤ iter) : ixBefore cw (iter + 1) = ixAfter cw iter + 1 := by
  unfold ixAfter ixBefore
  by_cases h : iter % cw = 0
  · have : cw ≤ iter := by
      by_contra hlt
      rw [Nat.mod_eq_of_lt (by omega)] at h
      omega
    simp [h, show ¬ (iter + 1 ≤ cw) by omega]
  · by_cases h1 : iter ≤ cw
    · have : iter ≠ cw := fun e => h (by rw [e, Nat.mod_self])
      simp only [show iter + 1 ≤ cw by omega, h1, h, if_true, if_false]
      omega
    · simp only [show ¬ (iter + 1 ≤ cw) by omega, h1, h, if_false]
      obtain ⟨j, rfl⟩ : ∃ j, iter = j + 1 := ⟨iter - 1, by omega⟩
      simp only [Nat.add_sub_cancel]
      have hlt : j % cw + 1 < cw := by
        have h2 := Nat.mod_lt j (show 0 < cw by omega)
        rcases Nat.lt_or_ge (j % cw + 1) cw with h3 | h3
        · exact h3
        · exfalso
          apply h
          rw [Nat.add_mod]
          have : j % cw = cw - 1 := by omega
          rw [this]
          by_cases hc1 : cw = 1
          · subst hc1; exact Nat.mod_one _
          · rw [Nat.mod_eq_of_lt (show 1 < cw by omega), show cw - 1 + 1 = cw by omega, Nat.mod_self]
      rw [Nat.add_mod, Nat.mod_eq_of_lt (show 1 < cw by omega), Nat.mod_eq_of_lt hlt]

theorem ixAfter_lt (cw iter : Nat) (hc : 1 ≤ cw) (hi : 1 ≤ iter) : ixAfter cw iter < cw := by
  have h := ixBefore_succ cw iter hc hi
  have : ixBefore cw (iter + 1) ≤ cw := by
    unfold ixBefore
    split
    · omega
    · have := Nat.mod_lt (iter + 1 - 1) (show 0 < cw by omega)
      omega
  omega

/-- at the time of a check, the window is full except for the first time, when the last row is missing -/
theorem ixBefore_check (cw iter : Nat) (hi : 1 ≤ iter) (h : iter % cw = 0) :
    (iter = cw ∧ ixBefore cw iter = cw - 1) ∨ (cw < iter ∧ ixBefore cw iter = cw) := by
  obtain ⟨j, rfl⟩ := Nat.dvd_of_mod_eq_zero h
  have hj : j ≠ 0 := by rintro rfl; simp at hi
  have hc : cw ≠ 0 := by rintro rfl; simp at hi
  by_cases h1 : j = 1
  · left; subst h1; simp [ixBefore]
  · right
    have : cw * 2 ≤ cw * j := Nat.mul_le_mul_left _ (by omega)
    refine ⟨by omega, ?_⟩
    rw [ixBefore, if_neg (by omega)]
    obtain ⟨i, rfl⟩ : ∃ i, j = i + 1 := ⟨j - 1, by omega⟩
    have : cw * (i + 1) - 1 = (cw - 1) + cw * i := by rw [Nat.mul_add]; omega
    rw [this, Nat.add_mul_mod_self_left, Nat.mod_eq_of_lt (by omega)]
    omega

section Run

variable {env : Env F G} {mats lbdas : List Nat} {eps : ℝ} {cw : Nat} {bmax : Int} {ps pre : Nat}

/-- rows that agree at the beginning of a turn -/
def rowsBefore (cw iter r : Nat) : Prop := r < ixBefore cw iter ∨ (iter ≤ cw ∧ r = cw - 1)
def rowsAfter (cw iter r : Nat) : Prop := r < ixAfter cw iter ∨ (iter < cw ∧ r = cw - 1)

theorem windowTurn_twin {j' : Nat → Nat → Nat → Nat → NpF} {iter : Nat} (hi : 1 ≤ iter)
    {t : Nat → Option LTrace} {m : Mach F G}
    (ht : Twin lbdas cw (fun _ => ixBefore cw iter) (fun _ => rowsBefore cw iter) t m) :
    (∃ e, windowTurn env lbdas eps cw pre iter m = .error e ∧
      windowTurn { env with junk := j' } lbdas eps cw pre iter (withL t m) = .error e) ∨
    (∃ n b t', windowTurn env lbdas eps cw pre iter m = .ok (n, b) ∧
      windowTurn { env with junk := j' } lbdas eps cw pre iter (withL t m) = .ok (withL t' n, b) ∧
      (b = false → Twin lbdas cw (fun _ => ixAfter cw iter) (fun _ => rowsAfter cw iter) t' n)) := by
  by_cases hw : iter % cw = 0
  · rw [windowTurn, windowTurn, if_pos hw, if_pos hw]
    have hixA : ixAfter cw iter = 0 := by rw [ixAfter, if_pos hw]
    have hcw : cw ≤ iter := by
      rcases ixBefore_check cw iter hi hw with h | h <;> omega
    have heq : ∀ k ∈ lbdas, t k = m.ltrace k := by
      intro k hk
      obtain ⟨-, u, u', hu, hu', ha, hl⟩ := ht k hk
      rw [hu, hu', ha.eq]
      intro r hr
      rw [hl] at hr
      rcases ixBefore_check cw iter hi hw with h | h
      · show rowsBefore cw iter r
        unfold rowsBefore
        omega
      · exact .inl (by rw [h.2]; exact hr)
    have hconv : allConverged eps (resetIndexL lbdas (withL t m)) lbdas =
        allConverged eps (resetIndexL lbdas m) lbdas := allConverged_congr _ _ _ _ heq
    have htwin : Twin lbdas cw (fun _ => ixAfter cw iter) (fun _ => rowsAfter cw iter) t (resetIndexL lbdas m) := by
      intro k hk
      obtain ⟨-, u, u', hu, hu', ha, hl⟩ := ht k hk
      refine ⟨?_, u, u', hu, hu', ha.weaken ?_, hl⟩
      · rw [hixA]; simp [resetIndexL, hk]
      · intro r hr
        change rowsAfter cw iter r at hr
        unfold rowsAfter at hr
        rw [hixA] at hr
        omega
    unfold windowStep
    simp only
    rw [hconv]
    cases allConverged eps (resetIndexL lbdas m) lbdas with
    | error e => exact .inl ⟨e, rfl, rfl⟩
    | ok conv =>
      cases conv with
      | false => exact .inr ⟨resetIndexL lbdas m, false, t, rfl, rfl, fun _ => htwin⟩
      | true =>
        simp only [bind, Except.bind, if_true]
        have hcomm : autoClean (resetIndexL lbdas (withL t m)).layers (resetIndexL lbdas (withL t m)) =
            (autoClean (resetIndexL lbdas m).layers (resetIndexL lbdas m)).map fun r => (withL t r.1, r.2) :=
          autoClean_withL t _ (resetIndexL lbdas m)
        rw [hcomm]
        cases hac : autoClean (resetIndexL lbdas m).layers (resetIndexL lbdas m) with
        | error e => exact .inl ⟨e, rfl, rfl⟩
        | ok r =>
          obtain ⟨m1, b⟩ := r
          cases b with
          | false =>
            exact .inr ⟨{ m1 with burn_in_iters := some (iter + pre) }, true, t, rfl, rfl, fun h => by cases h⟩
          | true =>
            refine .inr ⟨allocLbdas (env.junk iter) cw lbdas m1, false,
              (allocLbdas (j' iter) cw lbdas (withL t m1)).ltrace, rfl, rfl, fun _ => ?_⟩
            intro k hk
            refine ⟨?_, allocL (env.junk iter k) cw (m1.world.lbda k), allocL (j' iter k) cw (m1.world.lbda k), ?_, ?_,
              ⟨?_, ?_, ?_⟩, allocL_len _ _ _⟩
            · rw [hixA]; simp [allocLbdas, hk]
            · simp [allocLbdas, hk]
            · simp [allocLbdas, hk, withL]
            · rw [allocL_kind, allocL_kind]
            · rw [allocL_len, allocL_len]
            · intro r hr
              change rowsAfter cw iter r at hr
              unfold rowsAfter at hr
              rw [hixA] at hr
              omega
  · rw [windowTurn, windowTurn, if_neg hw, if_neg hw]
    refine .inr ⟨m, false, t, rfl, rfl, fun _ => ?_⟩
    intro k hk
    obtain ⟨h1, u, u', hu, hu', ha, hl⟩ := ht k hk
    have hix : ixAfter cw iter = ixBefore cw iter := by rw [ixAfter, if_neg hw]
    refine ⟨by rw [hix]; exact h1, u, u', hu, hu', ha.weaken ?_, hl⟩
    intro r hr
    change rowsAfter cw iter r at hr
    unfold rowsAfter at hr
    rw [hix] at hr
    show rowsBefore cw iter r
    unfold rowsBefore
    omega

theorem burnSweep_twin {iter : Nat} (hc : 1 ≤ cw) (hi : 1 ≤ iter) (hnd : lbdas.Nodup) {t : Nat → Option LTrace}
    {m : Mach F G} (ht : Twin lbdas cw (fun _ => ixAfter cw iter) (fun _ => rowsAfter cw iter) t m) :
    (∃ e, burnSweep env mats lbdas m = .error e ∧ burnSweep env mats lbdas (withL t m) = .error e) ∨
    (∃ n t', burnSweep env mats lbdas m = .ok n ∧ burnSweep env mats lbdas (withL t m) = .ok (withL t' n) ∧
      Twin lbdas cw (fun _ => ixBefore cw (iter + 1)) (fun _ => rowsBefore cw (iter + 1)) t' n) := by
  rw [burnSweep, burnSweep, sampleMats_withL]
  cases h1 : sampleMats env mats m with
  | error e => exact .inl ⟨e, rfl, rfl⟩
  | ok m1 =>
    simp only [bind, Except.bind, Except.map]
    rw [sampleLbdas_withL]
    cases h2 : sampleLbdas env lbdas m1 with
    | error e => exact .inl ⟨e, rfl, rfl⟩
    | ok m2 =>
      simp only [Except.map]
      obtain ⟨w1, -, e1⟩ := sampleMats_ok h1
      obtain ⟨w2, -, e2⟩ := sampleLbdas_ok h2
      have ht2 : Twin lbdas cw (fun _ => ixAfter cw iter) (fun _ => rowsAfter cw iter) t m2 := by
        intro k hk
        rw [e2, e1]
        exact ht k hk
      rcases updateTracesL_twin lbdas hnd ht2 with h | ⟨n, t', g1, g2, g3, -⟩
      · exact .inl h
      · refine .inr ⟨n, t', g1, g2, ?_⟩
        intro k hk
        obtain ⟨a, u, u', b, c, d, e⟩ := g3 k hk
        refine ⟨by rw [ixBefore_succ cw iter hc hi]; exact a, u, u', b, c, d.weaken ?_, e⟩
        intro r hr
        change rowsBefore cw (iter + 1) r at hr
        unfold rowsBefore at hr
        rw [ixBefore_succ cw iter hc hi] at hr
        show rowsAfter cw iter r ∨ _
        unfold rowsAfter
        omega

theorem mainLoop_twin {j' : Nat → Nat → Nat → Nat → NpF} (hnd : lbdas.Nodup) (n : Nat) :
    ∀ (iter : Nat) (t : Nat → Option LTrace) (m : Mach F G), (bmax + 1 - (iter + pre)).toNat = n → 1 ≤ iter →
    Twin lbdas cw (fun _ => ixBefore cw iter) (fun _ => rowsBefore cw iter) t m →
    (∃ e, mainLoop env mats lbdas eps cw bmax ps pre iter m = .error e ∧
      mainLoop { env with junk := j' } mats lbdas eps cw bmax ps pre iter (withL t m) = .error e) ∨
    (∃ n t', mainLoop env mats lbdas eps cw bmax ps pre iter m = .ok n ∧
      mainLoop { env with junk := j' } mats lbdas eps cw bmax ps pre iter (withL t m) = .ok (withL t' n)) := by
  by_cases hps : ps = 0
  · intro iter t m _ _ _
    exact .inl ⟨_, mainLoop_zero (.inl hps), mainLoop_zero (.inl hps)⟩
  by_cases hcw : cw = 0
  · intro iter t m _ _ _
    exact .inl ⟨_, mainLoop_zero (.inr hcw), mainLoop_zero (.inr hcw)⟩
  induction n using Nat.strong_induction_on with
  | _ n ih =>
    intro iter t m hn hi ht
    rw [mainLoop_eq hps hcw, mainLoop_eq hps hcw]
    rcases windowTurn_twin (env := env) (eps := eps) (pre := pre) (j' := j') hi ht with ⟨e, h1, h2⟩ | ⟨m1, b, t1, h1, h2, htw⟩
    · rw [h1, h2]; exact .inl ⟨e, rfl, rfl⟩
    · rw [h1, h2]
      simp only [bind, Except.bind]
      cases b with
      | true => exact .inr ⟨m1, t1, rfl, rfl⟩
      | false =>
        simp only [Bool.false_eq_true, if_false]
        by_cases hb : bmax < (iter : Int) + pre
        · rw [if_pos hb, if_pos hb, stopStep_withL]
          cases stopStep lbdas iter m1 with
          | error e => exact .inl ⟨e, rfl, rfl⟩
          | ok m2 => exact .inr ⟨m2, t1, rfl, rfl⟩
        · rw [if_neg hb, if_neg hb]
          have hsw : burnSweep { env with junk := j' } mats lbdas (withL t1 m1) =
              burnSweep env mats lbdas (withL t1 m1) := rfl
          rw [hsw]
          rcases burnSweep_twin (env := env) (mats := mats) (by omega) hi hnd (htw rfl) with ⟨e, g1, g2⟩ | ⟨m2, t2, g1, g2, g3⟩
          · rw [g1, g2]; exact .inl ⟨e, rfl, rfl⟩
          · rw [g1, g2]
            exact ih _ (by push_cast; omega) _ _ _ rfl (by omega) g3

end Run

end LFM
