/-
The analytic functions: `src/functions_impl.c`, the list `src/functions.itm`, and the function table of `src/functions.c` 45-137.

Doubles are real numbers; `pow`, `exp`, `log`, `sqrt`, `cos`, `sin`, `acos` of the C library are the mathematical functions (`power_1`,
`power_m`, `src/utils.c` 76-98).  Where the C functions give infinities or NaN (division by 0, powers of negative numbers) the real ones
have some value; the theorems ask for arguments where they do not.
-/
import Verif.Model.Tails

namespace Verif.Catalogue

open Verif.Tails

/-- The functions of `src/functions.itm` 31-88, by name. -/
inductive Fn
  | lj | eopp | morse | ms | buck | msNonEs | buckNonEs | born | softshell | eoppExp | meopp | power | powerDecay | expDecay | bjs
  | parabola | harmonic | acosharmonic | csw | universal | const | sqrt | mexpDecay | strmm | doubleMorse | doubleExp | poly5
  | kawamura | kawamuraMix | expPlus | mishin | genLj | gljm | vas | vpair | csw2 | shengPhi1 | shengPhi2 | shengRho | shengF
  | stiweb2 | stiweb3 | lambda | tersoffPot | tersoffMix | tersoffModPot
deriving DecidableEq, Repr

/-- First argument of `FUNCTION` in `src/functions.itm`, made a string by `add_potential(#name, ...)`, `src/functions.c` 60. -/
def Fn.name : Fn → String
  | .lj => "lj" | .eopp => "eopp" | .morse => "morse" | .ms => "ms" | .buck => "buck" | .msNonEs => "ms_non_es"
  | .buckNonEs => "buck_non_es" | .born => "born" | .softshell => "softshell" | .eoppExp => "eopp_exp" | .meopp => "meopp"
  | .power => "power" | .powerDecay => "power_decay" | .expDecay => "exp_decay" | .bjs => "bjs" | .parabola => "parabola"
  | .harmonic => "harmonic" | .acosharmonic => "acosharmonic" | .csw => "csw" | .universal => "universal" | .const => "const"
  | .sqrt => "sqrt" | .mexpDecay => "mexp_decay" | .strmm => "strmm" | .doubleMorse => "double_morse" | .doubleExp => "double_exp"
  | .poly5 => "poly_5" | .kawamura => "kawamura" | .kawamuraMix => "kawamura_mix" | .expPlus => "exp_plus" | .mishin => "mishin"
  | .genLj => "gen_lj" | .gljm => "gljm" | .vas => "vas" | .vpair => "vpair" | .csw2 => "csw2" | .shengPhi1 => "sheng_phi1"
  | .shengPhi2 => "sheng_phi2" | .shengRho => "sheng_rho" | .shengF => "sheng_F" | .stiweb2 => "stiweb_2" | .stiweb3 => "stiweb_3"
  | .lambda => "lambda" | .tersoffPot => "tersoff_pot" | .tersoffMix => "tersoff_mix" | .tersoffModPot => "tersoff_mod_pot"

/-- Second argument of `FUNCTION`; for `lambda` the product of even and half is an integer. -/
def Fn.nPar (ntypes : Nat) : Fn → Nat
  | .lj => 2 | .eopp => 6 | .morse => 3 | .ms => 3 | .buck => 3 | .msNonEs => 3 | .buckNonEs => 3 | .born => 5 | .softshell => 2
  | .eoppExp => 6 | .meopp => 7 | .power => 2 | .powerDecay => 2 | .expDecay => 2 | .bjs => 3 | .parabola => 3 | .harmonic => 2
  | .acosharmonic => 2 | .csw => 4 | .universal => 4 | .const => 1 | .sqrt => 2 | .mexpDecay => 3 | .strmm => 5 | .doubleMorse => 7
  | .doubleExp => 5 | .poly5 => 5 | .kawamura => 9 | .kawamuraMix => 12 | .expPlus => 3 | .mishin => 6 | .genLj => 5 | .gljm => 12
  | .vas => 2 | .vpair => 7 | .csw2 => 4 | .shengPhi1 => 5 | .shengPhi2 => 4 | .shengRho => 5 | .shengF => 4 | .stiweb2 => 6
  | .stiweb3 => 2 | .lambda => ntypes * ntypes * (ntypes + 1) / 2 | .tersoffPot => 11 | .tersoffMix => 2 | .tersoffModPot => 16

/-- Compile-time options which matter for the list. -/
structure Options where
  coulomb : Bool
  stiweb : Bool
  tersoff : Bool
  tersoffMod : Bool
deriving DecidableEq

/-- The list in the order of `src/functions.itm`. -/
def items (o : Options) : List Fn :=
  [.lj, .eopp, .morse, .ms, .buck] ++ (if o.coulomb then [.msNonEs, .buckNonEs] else []) ++
  [.born, .softshell, .eoppExp, .meopp, .power, .powerDecay, .expDecay, .bjs, .parabola, .harmonic, .acosharmonic, .csw, .universal,
    .const, .sqrt, .mexpDecay, .strmm, .doubleMorse, .doubleExp, .poly5, .kawamura, .kawamuraMix, .expPlus, .mishin, .genLj, .gljm,
    .vas, .vpair, .csw2, .shengPhi1, .shengPhi2, .shengRho, .shengF] ++
  (if o.stiweb then [.stiweb2, .stiweb3, .lambda] else []) ++
  (if o.tersoff then (if o.tersoffMod then [.tersoffModPot] else [.tersoffPot, .tersoffMix]) else [])

/-- `function_table`, `src/functions.c` 45-51. -/
structure Entry where
  name : String
  nPar : Nat
  fn : Fn
deriving DecidableEq

/-- `add_potential`, 75-101; `none`: "There already is a potential with the name". -/
def addPotential (t : List Entry) (name : String) (nPar : Nat) (fn : Fn) : Option (List Entry) :=
  if t.any (fun e => e.name == name) then none else some (t ++ [⟨name, nPar, fn⟩])

/-- `initialize_analytic_potentials`, 58-69. -/
def initTable (o : Options) (ntypes : Nat) : Option (List Entry) :=
  (items o).foldlM (fun t f => addPotential t f.name (f.nPar ntypes) f) []

/-- `apot_get_num_parameters`, 108-116. -/
def getNumParameters (t : List Entry) (name : String) : Int :=
  match t.find? (fun e => e.name == name) with
  | some e => (e.nPar : Int)
  | none => -1

/-- `apot_assign_function_pointers`, 123-137; `none` is the return value -1. -/
def assignPointers (t : List Entry) (names : List String) : Option (List Fn) :=
  names.mapM fun name => (t.find? (fun e => e.name == name)).map Entry.fn

noncomputable section

/-- `ms_non_es_value`, `ms_value` without `COULOMB`, `src/functions_impl.c` 120-125. -/
def msPlain (r : ℝ) (p : Nat → ℝ) : ℝ :=
  let x := 1 - r / p 2
  p 0 * (Real.exp (p 1 * x) - 2 * Real.exp (p 1 * x / 2))

/-- `buck_non_es_value`, `buck_value` without `COULOMB`, 161-167. -/
def buckPlain (r : ℝ) (p : Nat → ℝ) : ℝ :=
  let x := p 1 * p 1 / (r * r)
  let y := x * x * x
  p 0 * Real.exp (-r / p 1) - p 2 * y

/-- The functions, 51-688; `coulomb` is `g_config.dp_cut` in builds with electrostatics, and `none` in others.  `none`: the function does
not write to `*f`. -/
def value (coulomb : Option ℝ) (f : Fn) (r : ℝ) (p : Nat → ℝ) : Option ℝ :=
  match f with
  | .lj => -- 51-57
    let x := p 1 * p 1 / (r * r)
    let x := x * x * x
    some (4 * p 0 * x * (x - 1))
  | .eopp => some (eoppValue r p) -- 64-73
  | .morse => some (p 0 * (Real.exp (-2 * p 1 * (r - p 2)) - 2 * Real.exp (-p 1 * (r - p 2)))) -- 80-83
  | .ms => match coulomb with -- 105-125
    | some cut => some (msValue cut r (p 0) (p 1) (p 2))
    | none => some (msPlain r p)
  | .buck => match coulomb with -- 146-167
    | some cut => some (buckValue cut r (p 0) (p 1) (p 2))
    | none => some (buckPlain r p)
  | .msNonEs => some (msPlain r p)
  | .buckNonEs => some (buckPlain r p)
  | .born => -- 174-182
    let x := p 2 - r
    let r2 := r * r
    let r6 := r2 * r2 * r2
    let r8 := r6 * r2
    some (p 0 * Real.exp (x / p 1) - p 3 / r6 + p 4 / r8)
  | .softshell => some ((p 0 / r) ^ p 1) -- 189-194
  | .eoppExp => some (eoppExpValue r p) -- 201-208
  | .meopp => some (p 0 / (r - p 6) ^ p 1 + p 2 / r ^ p 3 * Real.cos (p 4 * r + p 5)) -- 215-224
  | .power => some (p 0 * r ^ p 1) -- 231-238
  | .powerDecay => some (p 0 / r ^ p 1) -- 245-252
  | .expDecay => some (p 0 * Real.exp (-p 1 * r)) -- 259-262
  | .bjs => some (if r = 0 then 0 else p 0 * (1 - p 1 * Real.log r) * r ^ p 1 + p 2 * r) -- 269-280
  | .parabola => some (r * r * p 0 + r * p 1 + p 2) -- 287-290
  | .harmonic => some (p 0 * (r - p 1) * (r - p 1)) -- 297-300
  | .acosharmonic => some (p 0 * (Real.arccos r - p 1) * (Real.arccos r - p 1)) -- 307-312
  | .csw => some ((1 + p 0 * Real.cos (p 2 * r) + p 1 * Real.sin (p 2 * r)) / r ^ p 3) -- 319-326
  | .csw2 => some (csw2Value r p) -- 333-340
  | .universal => some (p 0 * (p 2 / (p 2 - p 1) * r ^ p 1 - p 1 / (p 2 - p 1) * r ^ p 2) + p 3 * r) -- 347-358
  | .const => some (p 0) -- 365
  | .sqrt => some (p 0 * √(r / p 1)) -- 371-374
  | .mexpDecay => some (p 0 * Real.exp (-p 1 * (r - p 2))) -- 381-384
  | .strmm => -- 391-397
    let r0 := r - p 4
    some (2 * p 0 * Real.exp (-p 1 / 2 * r0) - p 2 * (1 + p 3 * r0) * Real.exp (-p 3 * r0))
  | .doubleMorse => some (p 0 * (Real.exp (-2 * p 1 * (r - p 2)) - 2 * Real.exp (-p 1 * (r - p 2))) +
      p 3 * (Real.exp (-2 * p 4 * (r - p 5)) - 2 * Real.exp (-p 4 * (r - p 5))) + p 6) -- 404-410
  | .doubleExp => some (p 0 * Real.exp (-p 1 * ((r - p 2) * (r - p 2))) + Real.exp (-p 3 * (r - p 4))) -- 417-420
  | .poly5 => -- 427-433
    let dr := (r - 1) * (r - 1)
    some (p 0 + 0.5 * p 1 * dr + p 2 * (r - 1) * dr + p 3 * (dr * dr) + p 4 * (dr * dr) * (r - 1))
  | .kawamura => -- 440-449
    let r6 := r * r * r
    let r6 := r6 * r6
    some (p 0 * p 1 / r + p 2 * (p 5 + p 6) * Real.exp ((p 3 + p 4 - r) / (p 5 + p 6)) - p 7 * p 8 / r6)
  | .kawamuraMix => -- 456-467
    let r6 := r * r * r
    let r6 := r6 * r6
    some (p 0 * p 1 / r + p 2 * (p 5 + p 6) * Real.exp ((p 3 + p 4 - r) / (p 5 + p 6)) - p 7 * p 8 / r6 +
      p 2 * p 9 * (Real.exp (-2 * p 10 * (r - p 11)) - 2 * Real.exp (-p 10 * (r - p 11))))
  | .expPlus => some (p 0 * Real.exp (-p 1 * r) + p 2) -- 474-477
  | .mishin => -- 484-493
    let z := r - p 3
    let temp := Real.exp (-p 5 * z)
    some (p 0 * z ^ p 4 * temp * (1 + p 1 * temp) + p 2)
  | .genLj => some (p 0 / (p 2 - p 1) * (p 2 / (r / p 3) ^ p 1 - p 1 / (r / p 3) ^ p 2) + p 4) -- 500-509
  | .gljm => -- 516-528
    let temp := Real.exp (-p 11 * (r - p 9))
    some (p 0 / (p 2 - p 1) * (p 2 / (r / p 3) ^ p 1 - p 1 / (r / p 3) ^ p 2) + p 4 +
      p 5 * (p 6 * (r - p 9) ^ p 10 * temp * (1 + p 7 * temp) + p 8))
  | .vas => some (Real.exp (p 0 / (r - p 1))) -- 535-538
  | .vpair => -- 546-558
    let x := r * r
    let x := x * x
    some (14.4 * (p 0 / r ^ p 1 - 0.5 * (p 4 * p 3 * p 3 + p 5 * p 2 * p 2 / x) * Real.exp (-r / p 6)))
  | .shengPhi1 => -- 565-571
    let y := r - p 4
    let z := -p 3 * y * y
    some (p 0 * Real.exp (-p 1 * r * r) + p 2 * Real.exp z)
  | .shengPhi2 => -- 578-584
    let y := r - p 3
    let z := p 2 * p 2 + y * y
    some (p 0 * Real.exp (-p 1 * r * r) + p 2 / z)
  | .shengRho => -- 591-604
    let x := p 4 * p 4 / (r * r)
    let x := x * x * x
    some (if r > 1.45 then 4 * p 3 * x * (x - 1) else p 0 * r ^ p 1 + p 2)
  | .shengF => some (p 0 * r ^ p 1 + p 2 * r + p 3) -- 611-618
  | .stiweb2 => some ((p 0 * r ^ (-p 2) - p 1 * r ^ (-p 3)) * Real.exp (p 4 / (r - p 5))) -- 626-635
  | .stiweb3 => some (Real.exp (p 0 / (r - p 1))) -- 641-644
  | .lambda => none -- 650-655
  | .tersoffPot => none -- 668-673
  | .tersoffMix => none -- 681-686
  | .tersoffModPot => none -- 696-701

end

end Verif.Catalogue
