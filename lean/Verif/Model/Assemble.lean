import Verif.Model.Experiments

/-!
# Machines that are put together by calls of the API: `add_matrix`, `add_layer`, attributes, `infer`

The objects of one machine (lom/machine.py:173-308, 455-775) while it is built, inferred, extended and inferred again.
Matrices get numbers in the order of creation.

Simplifications: layers of the models MAX-AND, OR-AND-IBP and qL-AND, which have attributes of their own, are left out
(`add_layer` raises here); `latent_size` is a number; arrays are int8 and belong to the machine (see `Verif.Model.Build` for
arrays that are shared); after an exception the machine is not used any more.
-/

namespace LFM

/-- a machine with all its objects: `m` has what inference changes or reads from `Machine`, the other attributes are those
of `Wiring`; `next` is the number of matrices (machine.py:206-244, 276-310, 455-485) -/
structure Workshop where
  m : Mach Sampler LbdaUpdate
  next : Nat
  childAxis : Nat → Nat
  parents : Nat → List Nat
  child : Nat → Nat
  beta_prior : Nat → ℝ × ℝ

namespace Workshop

/-- machine.py:462-468 `Machine.__init__` -/
def empty : Workshop where
  m :=
    { layers := []
      matrices := []
      anneal := false
      world := { mat := fun _ => ⟨Arr.full [] 0, Arr.full [] 0⟩, lbda := fun _ => .scalar .nan }
      fixed := fun _ => false
      layerOf := fun _ => none
      bernoulli_prior := fun _ => 0
      fct := fun _ => none
      trace := fun _ => none
      trace_index := fun _ => 0
      lfixed := fun _ => false
      lfct := fun _ => none
      ltrace := fun _ => none
      ltrace_index := fun _ => 0
      burn_in_iters := none
      clock := 0 }
  next := 0
  childAxis _ := 0
  parents _ := []
  child _ := 0
  beta_prior _ := (0, 0)

/-- the objects as inference sees them, with the random draws of this call
(machine.py:672-775 and what the sampling functions of matrix_update_wrappers.py:11-231 read) -/
def wiring (s : Workshop) (dr : Draws) : Wiring where
  layers := s.m.layers
  layerOf := s.m.layerOf
  childAxis := s.childAxis
  parents := s.parents
  child := s.child
  beta_prior := s.beta_prior
  rnd := dr.rnd
  perm := dr.perm
  junk := dr.junk
  junkSampling := dr.junkSampling
  junkMat := dr.junkMat
  special _ _ _ _ := .error .notImplemented

/-- machine.py:206-240 `MachineMatrix.__init__`, with the attribute `layer` that machine.py:290-291 sets -/
noncomputable def newMatrix (s : Workshop) (val : Arr Int) (child_axis : Nat) (fixed : Bool) (layer : Option Nat) :
    Workshop :=
  { s with
    m := { s.m with
      world := { s.m.world with mat := upd s.m.world.mat s.next ⟨val, Arr.full val.shape 0⟩ }
      fixed := upd s.m.fixed s.next fixed
      layerOf := upd s.m.layerOf s.next layer
      bernoulli_prior := upd s.m.bernoulli_prior s.next (1 / 2)
      fct := upd s.m.fct s.next none
      trace := upd s.m.trace s.next none
      trace_index := upd s.m.trace_index s.next 0 }
    next := s.next + 1
    childAxis := upd s.childAxis s.next child_axis
    parents := upd s.parents s.next [] }

/-- machine.py:533-542 `add_matrix`; the child axis of a matrix outside of layers is not read -/
noncomputable def addMatrix (s : Workshop) (val : Arr Int) (fixed : Bool) : Workshop :=
  let s' := s.newMatrix val 0 fixed none
  { s' with m := { s'.m with matrices := s'.m.matrices ++ [s.next] } }

/-- machine.py:509-511: one factor of layer `k` per axis; `init` are the random entries -/
noncomputable def addFactors (k L : Nat) (init : Nat → List Nat → Int) : List Nat → Nat → Workshop → Workshop
  | [], _, s => s
  | K :: shape, j, s => addFactors k L init shape (j + 1) (s.newMatrix ⟨[K, L], init j⟩ j false (some k))

/-- machine.py:508-531, the second half of `add_layer`: factors, lambda (`MachineParameter.__init__`, 178-184), the layer
(276-294) -/
noncomputable def attach (s : Workshop) (child : Nat) (shape : List Nat) (L : Nat) (model : String)
    (init : Nat → List Nat → Int) : Workshop :=
  let k := s.m.layers.length
  let s' := addFactors k L init shape 0 s
  { s' with
    m := { s'.m with
      layers := s'.m.layers ++ [⟨(List.range shape.length).map (s.next + ·), model, none, false, false⟩]
      world := { s'.m.world with lbda := upd s'.m.world.lbda k (.scalar (.fin (5 / 100))) }
      lfixed := upd s'.m.lfixed k false
      lfct := upd s'.m.lfct k none
      ltrace := upd s'.m.ltrace k none
      ltrace_index := upd s'.m.ltrace_index k 0 }
    parents := upd s'.parents child (s'.parents child ++ [k])
    child := upd s'.child k child
    beta_prior := upd s'.beta_prior k (1, 1) }

/-- writing `mat.val` (machine.py:225-230, an attribute that users may assign) -/
def setVal (s : Workshop) (i : Nat) (v : Arr Int) : Workshop := { s with m := { s.m with world := s.m.world.setVal i v } }

/-- machine.py:487-531 `add_layer`: the model is canonised and the child inverted if necessary (line 498), then the child
is created if there is none (501-506) -/
noncomputable def addLayer (s : Workshop) (child : Option Nat) (shape : Option (List Nat)) (L : Nat) (model : String)
    (init : Nat → List Nat → Int) : Except Err Workshop :=
  let r := canonise_model model (child.map fun i => (s.m.world.mat i).val)
  match r.2 with
  | .error e => .error e
  | .ok (model, _, _) =>
    if model = "MAX-AND" ∨ model = "OR-AND-IBP" ∨ model = "qL-AND" then .error .notImplemented
    else
      match child, shape with
      | none, some shape => .ok ((s.newMatrix ⟨shape, init shape.length⟩ 0 false none).attach s.next shape L model init)
      | some i, none =>
        let s' := match r.1 with
          | some v => s.setVal i v
          | none => s
        .ok (s'.attach i (s.m.world.mat i).val.shape L model init)
      | _, _ => .error .valueError

/-- machine.py:672-775 `infer` with the update functions of the generic models -/
noncomputable def infer (s : Workshop) (S cw : Nat) (eps : ℝ) (bmin : Nat) (bmax : Int) (ps fx : Nat) (dr : Draws) :
    Except Err Workshop := do
  let m ← LFM.infer (genericEnv (s.wiring dr)) S cw eps bmin bmax ps fx s.m
  pure { s with m := m }

end Workshop

/-- what a user does with a machine (machine.py:487-542, 672-775 and assignments to attributes) -/
inductive UserAct
  /-- `machine.add_matrix(val, fixed=fixed)` -/
  | addMatrix (val : Arr Int) (fixed : Bool)
  /-- `machine.add_layer(latent_size=L, child=child, shape=shape, model=model)` -/
  | addLayer (child : Option Nat) (shape : Option (List Nat)) (L : Nat) (model : String) (init : Nat → List Nat → Int)
  /-- `mat.fixed = b` -/
  | setFixed (i : Nat) (b : Bool)
  /-- `mat.bernoulli_prior = q` -/
  | setPrior (i : Nat) (q : ℝ)
  /-- `mat.fixed_entries = mask` -/
  | setEntries (i : Nat) (mask : Arr Int)
  /-- `mat.val = v` -/
  | setVal (i : Nat) (v : Arr Int)
  /-- `layer.lbda.val = x` -/
  | setLbda (k : Nat) (x : ℝ)
  /-- `layer.lbda.fixed = b` -/
  | setLbdaFixed (k : Nat) (b : Bool)
  /-- `layer.lbda.beta_prior = (a, b)` -/
  | setBeta (k : Nat) (a b : ℝ)
  /-- `layer.auto_clean = ac`, `layer.auto_reset = ar` -/
  | setClean (k : Nat) (ac ar : Bool)
  /-- `machine.anneal = b` -/
  | setAnneal (b : Bool)
  /-- `machine.infer(no_samples=S, ...)` -/
  | infer (S cw : Nat) (eps : ℝ) (bmin : Nat) (bmax : Int) (ps fx : Nat) (dr : Draws)

/-- the effect of an action (machine.py:487-542, 672-775) -/
noncomputable def Workshop.step (s : Workshop) : UserAct → Except Err Workshop
  | .addMatrix val fixed => .ok (s.addMatrix val fixed)
  | .addLayer child shape L model init => s.addLayer child shape L model init
  | .setFixed i b => .ok { s with m := { s.m with fixed := upd s.m.fixed i b } }
  | .setPrior i q => .ok { s with m := { s.m with bernoulli_prior := upd s.m.bernoulli_prior i q } }
  | .setEntries i mask => .ok { s with m := { s.m with
      world := { s.m.world with mat := upd s.m.world.mat i { s.m.world.mat i with fixed_entries := mask } } } }
  | .setVal i v => .ok (s.setVal i v)
  | .setLbda k x => .ok { s with m := { s.m with world := { s.m.world with lbda := upd s.m.world.lbda k (.scalar (.fin x)) } } }
  | .setLbdaFixed k b => .ok { s with m := { s.m with lfixed := upd s.m.lfixed k b } }
  | .setBeta k a b => .ok { s with beta_prior := upd s.beta_prior k (a, b) }
  | .setClean k ac ar => .ok { s with m := { s.m with
      layers := s.m.layers.modify k fun lr => { lr with auto_clean := ac, auto_reset := ar } } }
  | .setAnneal b => .ok { s with m := { s.m with anneal := b } }
  | .infer S cw eps bmin bmax ps fx dr => s.infer S cw eps bmin bmax ps fx dr

end LFM
