import Verif.Kernel.CknnHistory
/-!
# Model of kernel objects that are used by several models

`DiffusionMaps` (`datafold/dynfold/dmap.py`), `GeometricHarmonicsInterpolator` (`datafold/dynfold/outofsample.py`) and `JointlySmoothFunctions` (`datafold/dynfold/jsf.py`, here with one kernel) get a
kernel object as parameter.  The model has a heap of kernel objects; a fitted model holds a copy of the object or the object itself.
-/

namespace Verif.Kernel

variable {P σ A C T R : Type}

/-- The kernel models. -/
inductive KModelKind | diffusionMaps | geometricHarmonics | jointlySmooth
deriving DecidableEq, Repr

/-- How a model evaluates a kernel object with state `σ`: pair-wise and component-wise, `A` are attributes of the object wrapped around it. -/
structure Layer (P σ A : Type) where
  pair : σ → Option A → (X : List P) → Except KErr (Matrix (Fin X.length) (Fin X.length) ℝ) × σ × Option A
  comp : σ → Option A → (X Y : List P) → Except KErr (Matrix (Fin Y.length) (Fin X.length) ℝ) × σ

/-- `DmapKernelFixed` around the kernel (dmap.py 517-522, outofsample.py 185-190). -/
noncomputable def dmapLayer (k : DmapKernel) (I : Internal P σ) : Layer P σ ((n : Nat) × Fitted (Fin n)) where
  pair s a X := ((dmapPair k I ⟨s, a⟩ X).1, (dmapPair k I ⟨s, a⟩ X).2.inner, (dmapPair k I ⟨s, a⟩ X).2.fitted)
  comp s a X Y := ((dmapComp k I ⟨s, a⟩ X Y).1, (dmapComp k I ⟨s, a⟩ X Y).2.inner)

/-- The kernel itself (jsf.py 308-311, 326-335). -/
def bareLayer (I : Internal P σ) : Layer P σ Unit where
  pair s a X := ((I.pdist s X).1, (I.pdist s X).2, a)
  comp s _ X Y := I.cdist s X Y

/-- The kernel object of a fitted model: its own copy with a state, or the object with this number. -/
inductive Held (σ : Type)
  | own (s : σ)
  | ref (k : Nat)

/-- The attributes of a model: the kernel with the attributes of the wrapper, `X_fit_`, and the eigenpairs (or what is computed of them). -/
structure KModel (P σ A C : Type) where
  held : Option (Held σ)
  attrs : Option A
  data : Option (List P)
  coef : Option C

/-- All kernel objects and models; `param m` is the kernel object that model `m` has as parameter. -/
structure KWorld (P σ A C : Type) where
  kernels : Nat → σ
  param : Nat → Nat
  model : Nat → KModel P σ A C

/-- What does not change: the kinds of the models, the evaluation of the kernel, the validation of the data, the checks after the data have been stored, the solver and the evaluation of the coefficients. -/
structure KSetup (P σ A C T R : Type) where
  kind : Nat → KModelKind
  layer : Nat → Layer P σ A
  accepts : Nat → List P → T → Bool
  check : Nat → List P → Bool
  solve : Nat → T → (n : Nat) → Matrix (Fin n) (Fin n) ℝ → Except KErr C
  read : Nat → C → (m n : Nat) → Matrix (Fin m) (Fin n) ℝ → R

/-- Replace the attributes of one model. -/
def KWorld.setModel (w : KWorld P σ A C) (m : Nat) (x : KModel P σ A C) : KWorld P σ A C := { w with model := fun i => if i = m then x else w.model i }

/-- Replace the state of one kernel object. -/
def KWorld.setKernel (w : KWorld P σ A C) (k : Nat) (s : σ) : KWorld P σ A C := { w with kernels := fun i => if i = k then s else w.kernels i }

/-- The attributes that `fit` sets before the evaluation of the kernel: diffusion maps copy the kernel (dmap.py 511-524), geometric harmonics take it as it is (outofsample.py 181-193),
jointly smooth functions only store the data (jsf.py 363). -/
def startFit (S : KSetup P σ A C T R) (w : KWorld P σ A C) (m : Nat) (X : List P) : KWorld P σ A C :=
  match S.kind m with
  | .diffusionMaps => w.setModel m { w.model m with held := some (.own (w.kernels (w.param m))), attrs := none, data := some X }
  | .geometricHarmonics => w.setModel m { w.model m with held := some (.ref (w.param m)), attrs := none, data := some X }
  | .jointlySmooth => w.setModel m { w.model m with data := some X }

/-- After a refused pair-wise evaluation that leaves the kernel in state `s`; jointly smooth functions lose their copy of the kernel (jsf.py 303-317, 375). -/
def refusedEval (S : KSetup P σ A C T R) (w : KWorld P σ A C) (m : Nat) (s : σ) (a : Option A) : KWorld P σ A C :=
  match S.kind m with
  | .diffusionMaps => w.setModel m { w.model m with held := some (.own s), attrs := a }
  | .geometricHarmonics => (w.setKernel (w.param m) s).setModel m { w.model m with attrs := a }
  | .jointlySmooth => w

/-- After an accepted pair-wise evaluation (dmap.py 525, outofsample.py 203, jsf.py 303-317, 375). -/
def acceptedEval (S : KSetup P σ A C T R) (w : KWorld P σ A C) (m : Nat) (s : σ) (a : Option A) : KWorld P σ A C :=
  match S.kind m with
  | .diffusionMaps => w.setModel m { w.model m with held := some (.own s), attrs := a }
  | .geometricHarmonics => (w.setKernel (w.param m) s).setModel m { w.model m with attrs := a }
  | .jointlySmooth => w.setModel m { w.model m with held := some (.own s), attrs := a }

/-- `fit` (dmap.py 467-563, outofsample.py 132-224, jsf.py 343-393): result and everything afterwards, also if it is refused. -/
def fitModel (S : KSetup P σ A C T R) (w : KWorld P σ A C) (m : Nat) (X : List P) (t : T) : Except KErr Unit × KWorld P σ A C :=
  if S.accepts m X t = false then (.error .value, w)
  else if S.check m X = false then (.error .value, startFit S w m X)
  else match (S.layer m).pair (w.kernels (w.param m)) none X with
    | (.error e, s, a) => (.error e, refusedEval S (startFit S w m X) m s a)
    | (.ok M, s, a) => match S.solve m t X.length M with
      | .error e => (.error e, acceptedEval S (startFit S w m X) m s a)
      | .ok c => (.ok (), (acceptedEval S (startFit S w m X) m s a).setModel m { (acceptedEval S (startFit S w m X) m s a).model m with coef := some c })

/-- The state of the kernel of a model. -/
def KWorld.state (w : KWorld P σ A C) : Held σ → σ
  | .own s => s
  | .ref k => w.kernels k

/-- Store the state of the kernel of model `m`. -/
def KWorld.write (w : KWorld P σ A C) (m : Nat) (h : Held σ) (s : σ) : KWorld P σ A C :=
  match h with
  | .own _ => w.setModel m { w.model m with held := some (.own s) }
  | .ref k => w.setKernel k s

/-- `transform` and `predict` for new points (dmap.py 576-627, outofsample.py 227-246, jsf.py 256-297, 394-422). -/
def useModel (S : KSetup P σ A C T R) (w : KWorld P σ A C) (m : Nat) (Y : List P) : Except KErr R × KWorld P σ A C :=
  match (w.model m).held, (w.model m).data, (w.model m).coef with
  | some h, some X, some c =>
    (((S.layer m).comp (w.state h) (w.model m).attrs X Y).1.map (S.read m c Y.length X.length), w.write m h ((S.layer m).comp (w.state h) (w.model m).attrs X Y).2)
  | _, _, _ => (.error .attribute, w)

/-- What a program can do. -/
inductive KOp (P σ T : Type)
  /-- change a kernel object, for instance with `set_params` of the object, or of a model with the name `kernel__...` (which changes the same object) -/
  | change (k : Nat) (f : σ → σ)
  /-- `set_params(kernel=...)` -/
  | assign (m k : Nat)
  | fit (m : Nat) (X : List P) (t : T)
  | use (m : Nat) (Y : List P)

/-- Everything after one operation. -/
def kStep (S : KSetup P σ A C T R) (w : KWorld P σ A C) : KOp P σ T → KWorld P σ A C
  | .change k f => w.setKernel k (f (w.kernels k))
  | .assign m k => { w with param := fun i => if i = m then k else w.param i }
  | .fit m X t => (fitModel S w m X t).2
  | .use m Y => (useModel S w m Y).2

/-- Everything after a history of operations. -/
def kRun (S : KSetup P σ A C T R) (w : KWorld P σ A C) (h : List (KOp P σ T)) : KWorld P σ A C := h.foldl (kStep S) w

end Verif.Kernel
