import Verif.Lemmas.Total

/-!
# Lemmas about the sampling phase of `infer`
-/

namespace LFM

variable {F G : Type}

/-- what an entry of a trace is after writing `val` in its row -/
def writtenEntry (ibp : Bool) (val : Arr Int) (idx : List Nat) (old : Int) : Int :=
  if ibp = true then (if idx.getD 0 0 < val.dim 0 ∧ idx.getD 1 0 < val.dim 1 then val idx else old) else val idx

theorem writeTrace_ok {ibp : Bool} {t t' : Arr Int} {k : Nat} {val : Arr Int} (h : writeTrace ibp t k val = .ok t') :
    k < t.dim 0 ∧ t'.shape = t.shape ∧
      (ibp = false → t.shape.drop 1 = val.shape) ∧
      ∀ s idx, t' (s :: idx) = if s = k then writtenEntry ibp val idx (t (s :: idx)) else t (s :: idx) := by
  cases ibp with
  | false =>
    rw [writeTrace] at h
    simp only [Bool.false_eq_true, if_false] at h
    rw [writeM] at h
    split at h
    · rename_i hk
      split at h
      · rename_i hs
        cases h
        refine ⟨hk, rfl, fun _ => hs, ?_⟩
        intro s idx
        simp [writtenEntry]
      · cases h
    · cases h
  | true =>
    rw [writeTrace] at h
    simp only [if_true] at h
    rw [writeIBP] at h
    split at h
    · rename_i hk
      split at h
      · cases h
        refine ⟨hk, rfl, fun hc => (by cases hc), ?_⟩
        intro s idx
        simp only [List.head?_cons, Option.some.injEq, List.getD_cons_succ, List.drop_succ_cons, List.drop_zero,
          writtenEntry, if_true]
        by_cases hs : s = k
        · simp [hs]
        · simp [hs]
      · cases h
    · cases h

/-- all matrix traces -/
theorem updateTracesM_ok {ibp : Bool} (ks : List Nat) : ∀ {m m' : Mach F G}, ks.Nodup →
    ks.foldlM (updateTraceM ibp) m = .ok m' →
    m' = { m with trace := m'.trace, trace_index := m'.trace_index } ∧
    (∀ i ∈ ks, m'.trace_index i = m.trace_index i + 1 ∧ ∃ t t', m.trace i = some t ∧ m'.trace i = some t' ∧
      writeTrace ibp t (m.trace_index i) (m.world.mat i).val = .ok t') ∧
    (∀ i ∉ ks, m'.trace_index i = m.trace_index i ∧ m'.trace i = m.trace i) := by
  induction ks with
  | nil =>
    intro m m' _ h
    rw [List.foldlM_nil, pure_ok] at h
    subst h
    exact ⟨rfl, fun i hi => by simp at hi, fun i _ => ⟨rfl, rfl⟩⟩
  | cons k ks ih =>
    intro m m' hnd h
    have hnd' := List.nodup_cons.mp hnd
    rw [List.foldlM_cons, bind_ok] at h
    obtain ⟨m1, h1, h2⟩ := h
    rw [updateTraceM] at h1
    split at h1
    · cases h1
    · rename_i t ht
      simp only at h1
      rw [bind_ok] at h1
      obtain ⟨t', hw, h1⟩ := h1
      rw [pure_ok] at h1
      obtain ⟨o, g1, g2⟩ := ih hnd'.2 h2
      refine ⟨?_, ?_, ?_⟩
      · rw [o, ← h1]
      · intro i hi
        by_cases hik : i = k
        · subst hik
          obtain ⟨a, b⟩ := g2 i hnd'.1
          refine ⟨?_, t, t', ht, ?_, hw⟩
          · rw [a, ← h1]; simp [upd]
          · rw [b, ← h1]; simp [upd]
        · obtain ⟨a, u, u', b, c, d⟩ := g1 i (by simpa [hik] using hi)
          rw [← h1] at a b d
          refine ⟨by simpa [upd, hik] using a, u, u', by simpa [upd, hik] using b, c, ?_⟩
          simpa [upd, hik] using d
      · intro i hi
        simp only [List.mem_cons, not_or] at hi
        obtain ⟨a, b⟩ := g2 i hi.2
        rw [a, b, ← h1]
        simp [upd, hi.1]

/-- all parameter traces -/
theorem updateTracesL_ok (ks : List Nat) : ∀ {m m' : Mach F G}, ks.Nodup → ks.foldlM updateTraceL m = .ok m' →
    (∀ k ∈ ks, m'.ltrace_index k = m.ltrace_index k + 1 ∧ ∃ t t', m.ltrace k = some t ∧ m'.ltrace k = some t' ∧
      writeL t (m.ltrace_index k) (m.world.lbda k) = .ok t') ∧
    (∀ k ∉ ks, m'.ltrace_index k = m.ltrace_index k ∧ m'.ltrace k = m.ltrace k) := by
  induction ks with
  | nil =>
    intro m m' _ h
    rw [List.foldlM_nil, pure_ok] at h
    subst h
    exact ⟨fun i hi => by simp at hi, fun i _ => ⟨rfl, rfl⟩⟩
  | cons k ks ih =>
    intro m m' hnd h
    have hnd' := List.nodup_cons.mp hnd
    rw [List.foldlM_cons, bind_ok] at h
    obtain ⟨m1, h1, h2⟩ := h
    rw [updateTraceL] at h1
    split at h1
    · cases h1
    · rename_i t ht
      rw [bind_ok] at h1
      obtain ⟨t', hw, h1⟩ := h1
      rw [pure_ok] at h1
      obtain ⟨g1, g2⟩ := ih hnd'.2 h2
      refine ⟨?_, ?_⟩
      · intro i hi
        by_cases hik : i = k
        · subst hik
          obtain ⟨a, b⟩ := g2 i hnd'.1
          refine ⟨?_, t, t', ht, ?_, hw⟩
          · rw [a, ← h1]; simp [upd]
          · rw [b, ← h1]; simp [upd]
        · obtain ⟨a, u, u', b, c, d⟩ := g1 i (by simpa [hik] using hi)
          rw [← h1] at a b d
          refine ⟨by simpa [upd, hik] using a, u, u', by simpa [upd, hik] using b, c, ?_⟩
          simpa [upd, hik] using d
      · intro i hi
        simp only [List.mem_cons, not_or] at hi
        obtain ⟨a, b⟩ := g2 i hi.2
        rw [a, b, ← h1]
        simp [upd, hi.1]

/-- the row that is written: a float is repeated in all columns of a two-dimensional trace -/
def castL : Option Nat → LVal → LVal
  | some c, .scalar x => .vector (List.replicate c x)
  | _, v => v

theorem castL_kind {o : Option Nat} {v : LVal} (h : v.kind = o) : castL o v = v := by
  cases v with
  | scalar x => subst h; rfl
  | vector xs => cases o <;> rfl

theorem writeL_rows {t t' : LTrace} {k : Nat} {v : LVal} (h : writeL t k v = .ok t') :
    k < t.len ∧ t'.len = t.len ∧ t'.kind = t.kind ∧
      ∀ r, t'.row r = if r = k then some (castL t.kind v) else t.row r := by
  cases t with
  | scalars xs =>
    cases v with
    | scalar x =>
      rw [writeL] at h
      split at h
      · rename_i hk
        cases h
        refine ⟨hk, by simp [LTrace.len], rfl, ?_⟩
        intro r
        simp only [LTrace.row, List.getElem?_set]
        by_cases hr : r = k
        · subst hr; simp [hk, castL, LTrace.kind]
        · simp [hr, Ne.symm hr]
      · cases h
    | vector ys =>
      rw [writeL] at h
      split at h <;> cases h
  | vectors c xs =>
    cases v with
    | scalar x =>
      rw [writeL] at h
      split at h
      · rename_i hk
        cases h
        refine ⟨hk, by simp [LTrace.len], rfl, ?_⟩
        intro r
        simp only [LTrace.row, List.getElem?_set]
        by_cases hr : r = k
        · subst hr; simp [hk, castL, LTrace.kind]
        · simp [hr, Ne.symm hr]
      · cases h
    | vector ys =>
      rw [writeL] at h
      split at h
      · rename_i hk
        split at h
        · cases h
          refine ⟨hk, by simp [LTrace.len], rfl, ?_⟩
          intro r
          simp only [LTrace.row, List.getElem?_set]
          by_cases hr : r = k
          · subst hr; simp [hk, castL, LTrace.kind]
          · simp [hr, Ne.symm hr]
        · cases h
      · cases h

/-- `S` sampling sweeps: `wm t` is the world after the sweep over the matrices, `wl (t+1)` the one after the sweep over
the parameters -/
structure Chain (env : Env F G) (fct : Nat → Option F) (lfct : Nat → Option G) (mats lbdas : List Nat) (clock S : Nat)
    (wm wl : Nat → World) : Prop where
  mats : ∀ t < S, sweepM env fct mats (clock + t) (wl t) = .ok (wm t)
  lbdas : ∀ t < S, sweepL env lfct lbdas (clock + t + 1) (wm t) = .ok (wl (t + 1))

theorem samplingStep_ok {env : Env F G} {mats lbdas : List Nat} (hnd : mats.Nodup) (hndl : lbdas.Nodup) {ps : Nat}
    {m m' : Mach F G} (h : samplingStep env mats lbdas ps m = .ok m') : ∃ wm,
      sweepM env m.fct mats m.clock m.world = .ok wm ∧
      sweepL env m.lfct lbdas (m.clock + 1) wm = .ok m'.world ∧
      m' = { m with world := m'.world, clock := m.clock + 1, trace := m'.trace, trace_index := m'.trace_index,
                    ltrace := m'.ltrace, ltrace_index := m'.ltrace_index } ∧
      (∀ i ∈ mats, m'.trace_index i = m.trace_index i + 1 ∧ ∃ t t', m.trace i = some t ∧ m'.trace i = some t' ∧
        writeTrace (mats.any fun i => modelOf m i = some "OR-AND-IBP") t (m.trace_index i) (wm.mat i).val = .ok t') ∧
      (∀ k ∈ lbdas, m'.ltrace_index k = m.ltrace_index k + 1 ∧ ∃ t t', m.ltrace k = some t ∧ m'.ltrace k = some t' ∧
        writeL t (m.ltrace_index k) (m'.world.lbda k) = .ok t') := by
  rw [samplingStep, bind_ok] at h
  obtain ⟨m1, h1, h⟩ := h
  rw [bind_ok] at h
  obtain ⟨m2, h2, h⟩ := h
  rw [bind_ok] at h
  obtain ⟨m3, h3, h⟩ := h
  rw [bind_ok] at h
  obtain ⟨m4, h4, h⟩ := h
  by_cases hp : ps = 0
  · simp [hp, throw, throwThe, MonadExceptOf.throw] at h
  simp only [hp, if_false] at h
  have h := pure_ok.mp h
  subst h
  obtain ⟨w, e1, e2⟩ := sampleMats_ok h1
  obtain ⟨o2, f2, -⟩ := updateTracesM_ok mats hnd h2
  obtain ⟨w', e3, e4⟩ := sampleLbdas_ok h3
  have o4 := updateTracesL_only _ h4
  obtain ⟨f4, -⟩ := updateTracesL_ok lbdas hndl h4
  subst e2
  have hw4 : m4.world = w' := by rw [o4, e4]
  refine ⟨w, e1, ?_, ?_, ?_, ?_⟩
  · rw [o2] at e3
    rw [hw4]
    exact e3
  · rw [o4, e4, o2]
  · intro i hi
    obtain ⟨a, t, t', b, c, d⟩ := f2 i hi
    refine ⟨?_, t, t', b, ?_, d⟩
    · rw [o4, e4]; exact a
    · rw [o4, e4]; exact c
  · intro k hk
    obtain ⟨a, t, t', b, c, d⟩ := f4 k hk
    rw [e4] at a b d
    have e : m2.ltrace_index k = m.ltrace_index k := by rw [o2]
    have e' : m2.ltrace k = m.ltrace k := by rw [o2]
    refine ⟨by rw [a]; show m2.ltrace_index k + 1 = _; rw [e], t, t', by rw [← e']; exact b, c, ?_⟩
    rw [hw4, ← e]
    exact d

/-- the sampling loop -/
theorem samplingLoop_ok {env : Env F G} {mats lbdas : List Nat} (hnd : mats.Nodup) (hndl : lbdas.Nodup) {ps : Nat}
    (todo : Nat) : ∀ {m m' : Mach F G}, samplingLoop env mats lbdas ps todo m = .ok m' →
    ∃ wm wl, wl 0 = m.world ∧ wl todo = m'.world ∧
      Chain env m.fct m.lfct mats lbdas m.clock todo wm wl ∧
      (∀ i ∈ mats, ∀ t, m.trace i = some t → ∃ t', m'.trace i = some t' ∧ t'.shape = t.shape ∧
        m.trace_index i + todo ≤ max (m.trace_index i) (t.dim 0) ∧
        ((mats.any fun i => modelOf m i = some "OR-AND-IBP") = false →
          ∀ s < todo, ((wm s).mat i).val.shape = t.shape.drop 1) ∧
        ∀ s idx, t' (s :: idx) = if m.trace_index i ≤ s ∧ s < m.trace_index i + todo then
          writtenEntry (mats.any fun i => modelOf m i = some "OR-AND-IBP") ((wm (s - m.trace_index i)).mat i).val idx
            (t (s :: idx)) else t (s :: idx)) ∧
      (∀ k ∈ lbdas, ∀ t, m.ltrace k = some t → ∃ t', m'.ltrace k = some t' ∧ t'.len = t.len ∧ t'.kind = t.kind ∧
        ∀ r, t'.row r = if m.ltrace_index k ≤ r ∧ r < m.ltrace_index k + todo then
          some (castL t.kind ((wl (r - m.ltrace_index k + 1)).lbda k)) else t.row r) := by
  induction todo with
  | zero =>
    intro m m' h
    simp only [samplingLoop, Except.ok.injEq] at h
    subst h
    refine ⟨fun _ => m.world, fun _ => m.world, rfl, rfl, ⟨fun t ht => by omega, fun t ht => by omega⟩, ?_, ?_⟩
    · intro i _ t ht
      refine ⟨t, ht, rfl, by omega, fun _ s hs => by omega, fun s idx => ?_⟩
      rw [if_neg (by omega)]
    · intro k _ t ht
      refine ⟨t, ht, rfl, rfl, fun r => ?_⟩
      rw [if_neg (by omega)]
  | succ todo ih =>
    intro m m' h
    rw [samplingLoop, bind_ok] at h
    obtain ⟨m1, h1, h2⟩ := h
    obtain ⟨w, e1, e2, o, f1, f2⟩ := samplingStep_ok hnd hndl h1
    obtain ⟨wm, wl, g0, gS, gC, gm, gl⟩ := ih h2
    have oc : m1.clock = m.clock + 1 := by rw [o]
    have of : m1.fct = m.fct := by rw [o]
    have olf : m1.lfct = m.lfct := by rw [o]
    have omod : (mats.any fun i => modelOf m1 i = some "OR-AND-IBP") = mats.any fun i => modelOf m i = some "OR-AND-IBP" := by
      have : ∀ i, modelOf m1 i = modelOf m i := by
        intro i
        rw [modelOf, modelOf, o]
      simp only [this]
    rw [omod] at gm
    generalize (mats.any fun i => modelOf m i = some "OR-AND-IBP") = ibp at gm f1 ⊢
    refine ⟨fun t => if t = 0 then w else wm (t - 1), fun t => if t = 0 then m.world else wl (t - 1), by simp,
      by simp [gS], ⟨?_, ?_⟩, ?_, ?_⟩
    · intro t ht
      rcases t with _ | t
      · simpa using e1
      · have := gC.mats t (by omega)
        rw [oc, of] at this
        simpa [Nat.add_assoc, Nat.add_comm 1 t] using this
    · intro t ht
      rcases t with _ | t
      · simpa [g0] using e2
      · have := gC.lbdas t (by omega)
        rw [oc, olf] at this
        have e : m.clock + 1 + t + 1 = m.clock + (t + 1) + 1 := by omega
        rw [e] at this
        simpa using this
    · intro i hi t ht
      obtain ⟨a, u, u', b, c, d⟩ := f1 i hi
      rw [ht] at b
      cases b
      obtain ⟨k1, k2, k3, k4⟩ := writeTrace_ok d
      obtain ⟨t', q1, q2, q3, q4, q5⟩ := gm i hi u' c
      have hdim : u'.dim 0 = t.dim 0 := by rw [Arr.dim, Arr.dim, k2]
      refine ⟨t', q1, q2.trans k2, by omega, ?_, ?_⟩
      · intro hib s hs
        rcases s with _ | s
        · exact (k3 hib).symm
        · have := q4 hib s (by omega)
          rw [k2] at this
          simpa using this
      · intro s idx
        rw [q5, a, k4]
        by_cases h1 : m.trace_index i = s
        · subst h1
          rw [if_neg (by omega), if_pos rfl, if_pos (by omega)]
          simp
        · rw [if_neg (Ne.symm h1)]
          by_cases h2 : m.trace_index i + 1 ≤ s ∧ s < m.trace_index i + 1 + todo
          · rw [if_pos h2, if_pos (by omega)]
            have : s - m.trace_index i ≠ 0 := by omega
            simp only [this, if_false]
            rw [show s - m.trace_index i - 1 = s - (m.trace_index i + 1) by omega]
          · rw [if_neg h2, if_neg (by omega)]
    · intro k hk t ht
      obtain ⟨a, u, u', b, c, d⟩ := f2 k hk
      rw [ht] at b
      cases b
      obtain ⟨k1, k2, k3, k4⟩ := writeL_rows d
      obtain ⟨t', q1, q2, q3, q4⟩ := gl k hk u' c
      refine ⟨t', q1, q2.trans k2, q3.trans k3, ?_⟩
      intro r
      rw [q4, a, k4, k3]
      by_cases h1 : m.ltrace_index k = r
      · subst h1
        rw [if_neg (by omega), if_pos rfl, if_pos (by omega)]
        simp [g0]
      · rw [if_neg (Ne.symm h1)]
        by_cases h2 : m.ltrace_index k + 1 ≤ r ∧ r < m.ltrace_index k + 1 + todo
        · rw [if_pos h2, if_pos (by omega)]
          simp only [Nat.add_one_ne_zero, if_false, Nat.add_sub_cancel]
          rw [show r - (m.ltrace_index k + 1) + 1 = r - m.ltrace_index k by omega]
        · rw [if_neg h2, if_neg (by omega)]

end LFM
