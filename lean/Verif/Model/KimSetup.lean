/-
Selecting a KIM model: `check_model_routines`, `init_kim_model`, `check_KIM_model_support` and `initialize_KIM`
(`src/kim.c` 36-312), and the pointers set in every evaluation (`src/force_kim.c` 180-207).

Simplifications: of the KIM library the results of its calls are kept.  `SetArgumentPointer` fails for arguments which the model does
not support; `Compute` fails if an argument or callback which the model (or the library) requires has no pointer; both as documented
in the KIM API 2.  The statuses of arguments and callbacks are the same for all compute-arguments objects of a model.  All other
calls of the library succeed.  Values of the parameters are in `Verif/Model/KimParams.lean`.
-/
import Verif.Model.Basic

namespace Verif.KimSetup

/-- `KIM_SUPPORT_STATUS_…` -/
inductive Status
  | requiredByAPI | notSupported | required | optional
  deriving DecidableEq

/-- `KIM_COMPUTE_ARGUMENT_NAME_…` -/
inductive Arg
  | numberOfParticles | particleSpeciesCodes | particleContributing | coordinates
  | partialEnergy | partialForces | partialParticleEnergy | partialVirial | partialParticleVirial
  deriving DecidableEq

/-- All argument names in the order of the library. -/
def allArgs : List Arg := [.numberOfParticles, .particleSpeciesCodes, .particleContributing, .coordinates, .partialEnergy,
  .partialForces, .partialParticleEnergy, .partialVirial, .partialParticleVirial]

/-- `KIM_COMPUTE_CALLBACK_NAME_…`; `other` stands for names of later versions of the library. -/
inductive Callback
  | getNeighborList | processDEDrTerm | processD2EDr2Term | other
  deriving DecidableEq

def allCallbacks : List Callback := [.getNeighborList, .processDEDrTerm, .processD2EDr2Term, .other]

/-- Type of a parameter. -/
inductive PType
  | integer | double | unknown
  deriving DecidableEq

/-- What the library says about a model. -/
structure Model where
  units : Bool
  refresh : Bool
  /-- species with their codes -/
  species : List (String × Int)
  /-- types and extents of the parameters -/
  params : List (PType × Nat)
  arg : Arg → Status
  callback : Callback → Status

/-- Ways to stop with `error(1, …)`. -/
inductive Fault
  | units | refresh | noParams | paramType | species | energy | forces | stress | argument | callback | pointer | noConf | compute
  deriving DecidableEq

/-- A configuration: `useforce`, `usestress`. -/
structure Conf where
  uf : Bool
  us : Bool

/-- `init_kim_model`, 69-130, with `check_model_routines`, 36-63: number of parameter values.  A parameter without values ends the
program in `Malloc`. -/
def initModel (m : Model) : Except Fault Nat :=
  if m.units = false then .error .units
  else if m.refresh = false then .error .refresh
  else if m.params.length < 1 then .error .noParams
  else if m.params.any fun p => p.2 == 0 || p.1 == .unknown then .error .paramType
  else .ok (m.params.map Prod.snd).sum

/-- `species_map`, 142-156. -/
def speciesMap (m : Model) : List String → Except Fault (List Int)
  | [] => .ok []
  | e :: es => match m.species.lookup e with
    | none => .error .species
    | some code => match speciesMap m es with
      | .error x => .error x
      | .ok l => .ok (code :: l)

/-- Loop 163-175: the flags `use_forces` and `use_stress`; it is left as soon as both are set. -/
def useFlags (stress : Bool) : List Conf → Bool → Bool → Bool × Bool
  | [], f, s => (f, s)
  | c :: cs, f, s =>
    let f := f || c.uf
    let s := s || (stress && c.us)
    if f && (s || !stress) then (f, s) else useFlags stress cs f s

/-- Body of the loop 181-214 for one argument. -/
def checkArg (stress useF useS : Bool) (m : Model) (a : Arg) : Except Fault Unit :=
  if a = .partialEnergy then (if m.arg a = .notSupported then .error .energy else .ok ())
  else if useF = true ∧ a = .partialForces then (if m.arg a = .notSupported then .error .forces else .ok ())
  else if stress = true ∧ useS = true ∧ a = .partialVirial then (if m.arg a = .notSupported then .error .stress else .ok ())
  else if m.arg a = .required then .error .argument
  else .ok ()

/-- A loop which stops at the first fault. -/
def each {α : Type} (g : α → Except Fault Unit) : List α → Except Fault Unit
  | [] => .ok ()
  | a :: as => match g a with
    | .error e => .error e
    | .ok () => each g as

/-- `check_KIM_model_support`, 136-215. -/
def checkSupport (stress : Bool) (m : Model) (elements : List String) (confs : List Conf) : Except Fault (List Int) :=
  match speciesMap m elements with
  | .error e => .error e
  | .ok map =>
    let u := useFlags stress confs false false
    match each (checkArg stress u.1 u.2 m) allArgs with
    | .error e => .error e
    | .ok () => .ok map

/-- Callbacks which are registered, 247-282. -/
def setCallback (m : Model) : Callback → Except Fault (Option Callback)
  | .getNeighborList => .ok (some .getNeighborList)
  | .processDEDrTerm => .ok (if m.callback .processDEDrTerm = .required ∨ m.callback .processDEDrTerm = .optional then some .processDEDrTerm
      else none)
  | .processD2EDr2Term => .ok (if m.callback .processD2EDr2Term = .required ∨ m.callback .processD2EDr2Term = .optional
      then some .processD2EDr2Term else none)
  | .other => if m.callback .other = .required then .error .callback else .ok none

/-- The loop over the callbacks. -/
def setCallbacks (m : Model) : List Callback → Except Fault (List Callback)
  | [] => .ok []
  | c :: cs => match setCallback m c with
    | .error e => .error e
    | .ok r => match setCallbacks m cs with
      | .error e => .error e
      | .ok l => .ok (r.toList ++ l)

/-- `KIM_ComputeArguments_SetArgumentPointer…` fails for arguments which are not supported. -/
def setPointer (m : Model) (a : Arg) : Except Fault Unit := if m.arg a = .notSupported then .error .pointer else .ok ()

/-- Pointers set in `initialize_KIM`, 284-308. -/
def setupArgs : List Arg := [.numberOfParticles, .particleSpeciesCodes, .particleContributing, .coordinates, .partialForces]

/-- `initialize_KIM`, 221-312, after `init_kim_model`: species codes of the types and registered callbacks.  All configurations are
treated in the same way. -/
def setUp (stress : Bool) (m : Model) (elements : List String) (confs : List Conf) : Except Fault (List Int × List Callback) :=
  match initModel m with
  | .error e => .error e
  | .ok _ =>
    if confs = [] then .error .noConf
    else match checkSupport stress m elements confs with
      | .error e => .error e
      | .ok map => match setCallbacks m allCallbacks with
        | .error e => .error e
        | .ok cbs => match each (setPointer m) setupArgs with
          | .error e => .error e
          | .ok () => .ok (map, cbs)

/-- Arguments with a pointer when `KIM_Model_Compute` is called for a configuration, `src/force_kim.c` 180-201. -/
def computeArgs (stress : Bool) (c : Conf) : List Arg :=
  setupArgs ++ [.partialEnergy] ++ (if stress = true ∧ c.us = true then [.partialVirial] else [])

/-- Statuses with which `KIM_Model_Compute` wants a pointer. -/
def wanted (s : Status) : Bool := s == .required || s == .requiredByAPI

/-- `KIM_Model_Compute` accepts the call. -/
def computes (m : Model) (args : List Arg) (cbs : List Callback) : Bool :=
  (allArgs.all fun a => !wanted (m.arg a) || args.contains a) && allCallbacks.all fun c => !wanted (m.callback c) || cbs.contains c

/-- One evaluation: the pointers of energy and virial are set, then the model is called, `src/force_kim.c` 180-207. -/
def evaluate (stress : Bool) (m : Model) (cbs : List Callback) (c : Conf) : Except Fault Unit :=
  match setPointer m .partialEnergy with
  | .error e => .error e
  | .ok () => match (if stress = true ∧ c.us = true then setPointer m .partialVirial else .ok ()) with
    | .error e => .error e
    | .ok () => if computes m (computeArgs stress c) cbs then .ok () else .error .compute

end Verif.KimSetup
