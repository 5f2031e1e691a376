import Verif.Lemmas.RenameWiring
import Verif.Lemmas.AssembleNeat
import Verif.Props.Hier
import Verif.Spec.Describe

/-!
# Lemmas: machines built by calls of the API and the hierarchies they stand for
-/

namespace LFM

open Spec

namespace Spec.Hier.Describes

variable {h : Hier} {s : Workshop} {num : Equiv.Perm Nat}

theorem wired (D : h.Describes s num) (H : s.Sound) (N : s.Neat) (dr : LFM.Draws) : h.Wired ((s.wiring dr).ren num) := by
  refine ⟨?_, fun k L hL => ?_, fun i hi => ?_⟩
  · show (s.m.layers.map (LayerInfo.ren num)).length = _
    rw [List.length_map]; exact D.length
  · obtain ⟨lr, h1, h2, h3, h4, h5⟩ := D.layers k L hL
    refine ⟨lr.ren num, ?_, h2, ?_, ?_, fun i hi => ?_⟩
    · rw [layer_ren]
      show s.m.layers[k]?.map _ = _
      rw [h1]; rfl
    · show lr.factors.map num.symm = _
      rw [h3, List.map_map]
      have : num.symm ∘ num = id := funext num.symm_apply_apply
      rw [this, List.map_id]
    · show num.symm (s.child k) = _
      rw [h4, num.symm_apply_apply]
    · have hmem : num i ∈ lr.factors := by rw [h3]; exact List.mem_map_of_mem hi
      refine ⟨H.layerOf k lr (num i) h1 hmem, ?_⟩
      show s.childAxis (num i) = _
      rw [H.axis k lr _ (num i) h1 (H.position hmem).1, h3]
      have := idxOf_ren num.symm L.factors i
      exact this
  · show s.parents (num i) = _
    rw [N.parents, ← D.length]
    refine List.filter_congr fun k hk => ?_
    have hk' : k < h.layers.length := by rw [← D.length]; exact List.mem_range.1 hk
    obtain ⟨lr, h1, h2, h3, h4, h5⟩ := D.layers k _ (List.getElem?_eq_getElem hk')
    rw [List.getElem?_eq_getElem hk', h4]
    simp

theorem world (D : h.Describes s num) (st : h.State) :
    ((startAt num s st).m.world).ren num s.m.layers.length =
      h.world (fun i => (s.m.world.mat (num i)).fixed_entries) st := by
  unfold World.ren Spec.Hier.world
  congr 1
  · funext i
    show (if hj : num.symm (num i) < h.M then (⟨Cfg.arr (st ⟨num.symm (num i), hj⟩), (s.m.world.mat (num i)).fixed_entries⟩ : Fac)
      else s.m.world.mat (num i)) = _
    by_cases hi : i < h.M
    · have hi' : num.symm (num i) < h.M := by rw [num.symm_apply_apply]; exact hi
      rw [dif_pos hi', dif_pos hi]
      congr 1
      have : ∀ (j : Nat) (hj : j < h.M), j = i → (⟨Cfg.arr (st ⟨j, hj⟩), (s.m.world.mat (num i)).fixed_entries⟩ : Fac) =
          ⟨Cfg.arr (st ⟨i, hi⟩), (s.m.world.mat (num i)).fixed_entries⟩ := by
        rintro j hj rfl; rfl
      exact congrArg Fac.val (this _ hi' (num.symm_apply_apply i))
    · have hi' : ¬ num.symm (num i) < h.M := by rw [num.symm_apply_apply]; exact hi
      rw [dif_neg hi', dif_neg hi, D.data i (Nat.not_lt.1 hi)]
  · funext k
    show (if k < s.m.layers.length then s.m.world.lbda k else .scalar (.fin 0)) = _
    by_cases hk : k < s.m.layers.length
    · have hk' : k < h.layers.length := by rw [← D.length]; exact hk
      obtain ⟨lr, h1, h2, h3, h4, h5⟩ := D.layers k _ (List.getElem?_eq_getElem hk')
      rw [if_pos hk, h5, List.getElem?_eq_getElem hk']
      rfl
    · have hk' : h.layers[k]? = none := List.getElem?_eq_none (by rw [← D.length]; omega)
      rw [if_neg hk, hk']
      rfl

theorem fixedLbdas (D : h.Describes s num) (H : s.Sound) (C : FixedCall s) (dr : LFM.Draws) :
    h.FixedLbdas ((s.wiring dr).ren num) (s.m.ren num s.m.layers.length) := by
  refine ⟨rfl, rfl, fun i hi => (D.prior i hi).symm, fun k hk => C.lfixed k ?_, C.anneal, fun lr hlr => ?_, fun i f hf => ?_,
    fun i hi => ?_, ?_⟩
  · have hk' : k < (s.m.layers.map (LayerInfo.ren num)).length := hk
    rwa [List.length_map] at hk'
  · have hlr' : lr ∈ s.m.layers.map (LayerInfo.ren num) := hlr
    obtain ⟨lr0, h1, rfl⟩ := List.mem_map.1 hlr'
    exact C.off lr0 h1
  · have hf' : s.m.fct (num i) = some f := hf
    have := getSampler_ren num (wr := s.wiring dr) (n := s.m.layers.length) s.m (num i)
    rw [num.symm_apply_apply, C.fct _ f hf' dr] at this
    exact this
  · rw [freeMats_ren] at hi
    obtain ⟨j, hj, rfl⟩ := List.mem_map.1 hi
    rw [D.latent, num.apply_symm_apply]
    exact C.data j hj
  · rw [freeMats_ren]
    exact H.nodup_free.map num.symm.injective

theorem withDraws_ren (_ : h.Describes s num) (dr : LFM.Draws) (st : h.State) {T : Nat} (ω : h.Draws T) :
    withDraws ((s.wiring dr).ren num) ω = ((startAt num s st).wiring (callWith num dr ω)).ren num := by
  unfold withDraws Wiring.ren
  have : (fun t i => if hi : i < h.M then rndOf (pad ω t ⟨i, hi⟩) else fun _ => 0) =
      fun t i => ((startAt num s st).wiring (callWith num dr ω)).rnd t (num i) := by
    funext t i
    show _ = if hj : num.symm (num i) < h.M then rndOf (pad ω t ⟨num.symm (num i), hj⟩) else fun _ => 0
    have key : ∀ j, j = i → (if hi : i < h.M then rndOf (pad ω t ⟨i, hi⟩) else fun _ => 0) =
        if hj : j < h.M then rndOf (pad ω t ⟨j, hj⟩) else fun _ => 0 := by
      rintro j rfl; rfl
    exact key _ (num.symm_apply_apply i)
  simp only [this]
  rfl

/-- inference of the machine is inference of the hierarchy -/
theorem infer_ren (D : h.Describes s num) (dr : LFM.Draws) (st : h.State) {T : Nat} (ω : h.Draws T) (S cw : Nat)
    (eps : ℝ) (bmin : Nat) (bmax : Int) (ps fx : Nat) :
    LFM.infer (genericEnv (withDraws ((s.wiring dr).ren num) ω)) S cw eps bmin bmax ps fx
        { s.m.ren num s.m.layers.length with world := h.world (fun i => (s.m.world.mat (num i)).fixed_entries) st } =
      ((startAt num s st).infer S cw eps bmin bmax ps fx (callWith num dr ω)).map
        fun s' => s'.m.ren num s.m.layers.length := by
  have e1 : { s.m.ren num s.m.layers.length with world := h.world (fun i => (s.m.world.mat (num i)).fixed_entries) st } =
      (startAt num s st).m.ren num s.m.layers.length := by
    rw [← D.world st]
    rfl
  rw [e1, D.withDraws_ren dr st ω]
  have key := LFM.infer_ren num (genericEnv_ren num (wr := (startAt num s st).wiring (callWith num dr ω))
    (n := s.m.layers.length) le_rfl (fun _ _ _ _ => rfl)) S cw eps bmin bmax ps fx (startAt num s st).m le_rfl
  rw [key, Workshop.infer]
  cases LFM.infer (genericEnv ((startAt num s st).wiring (callWith num dr ω))) S cw eps bmin bmax ps fx (startAt num s st).m <;> rfl

theorem free_iff (D : h.Describes s num) (H : s.Sound) (i : Fin h.M) :
    (i : Nat) ∈ freeMats (s.m.ren num s.m.layers.length) ↔ s.m.fixed (num i) = false := by
  have h1 : (i : Nat) ∈ freeMats (s.m.ren num s.m.layers.length) ↔ num i ∈ freeMats s.m := by
    rw [freeMats_ren, List.mem_map]
    constructor
    · rintro ⟨j, hj, e⟩
      rw [← e, num.apply_symm_apply]
      exact hj
    · intro hi
      exact ⟨num i, hi, num.symm_apply_apply _⟩
  rw [h1, H.mem_free]
  constructor
  · exact And.left
  · intro hf
    have := (D.latent i).1 i.2
    obtain ⟨k, hk⟩ := Option.ne_none_iff_exists'.mp this
    obtain ⟨-, lr, e1, e2⟩ := H.owner _ k hk
    exact ⟨hf, .inr ⟨k, lr, e1, e2⟩⟩

theorem sample_iff (D : h.Describes s num) (H : s.Sound) (s' : Workshop) (S k : Nat) (st' : h.State) :
    h.IsSample (s.m.ren num s.m.layers.length) (s'.m.ren num s.m.layers.length) S k st' ↔ SampleOf num s s' S k st' := by
  unfold IsSample SampleOf
  refine and_congr (forall_congr' fun i => ?_) (forall_congr' fun i => ?_)
  · rw [D.free_iff H i]; rfl
  · rw [D.free_iff H i]
    have : (¬ s.m.fixed (num i) = false) ↔ s.m.fixed (num i) = true := by simp
    rw [this]; rfl

theorem event_iff (D : h.Describes s num) (H : s.Sound) (dr : LFM.Draws) (st : h.State) {T : Nat} (ω : h.Draws T) (S cw : Nat)
    (eps : ℝ) (bmin : Nat) (bmax : Int) (ps fx k : Nat) (st' : h.State) :
    (∃ m', LFM.infer (genericEnv (withDraws ((s.wiring dr).ren num) ω)) S cw eps bmin bmax ps fx
        { s.m.ren num s.m.layers.length with world := h.world (fun i => (s.m.world.mat (num i)).fixed_entries) st } = .ok m' ∧
      h.IsSample (s.m.ren num s.m.layers.length) m' S k st') ↔
    ∃ s', (startAt num s st).infer S cw eps bmin bmax ps fx (callWith num dr ω) = .ok s' ∧ SampleOf num s s' S k st' := by
  rw [D.infer_ren]
  cases hi : (startAt num s st).infer S cw eps bmin bmax ps fx (callWith num dr ω) with
  | error e =>
    constructor
    · rintro ⟨m', h1, -⟩; cases h1
    · rintro ⟨m', h1, -⟩; cases h1
  | ok s' =>
    constructor
    · rintro ⟨m', h1, h2⟩
      cases h1
      exact ⟨s', rfl, (D.sample_iff H s' S k st').1 h2⟩
    · rintro ⟨s'', h1, h2⟩
      cases h1
      exact ⟨_, rfl, (D.sample_iff H s' S k st').2 h2⟩

end Spec.Hier.Describes

end LFM
