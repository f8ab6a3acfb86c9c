/-
`src/elements.c`: the table of the elements and its look-ups.

Simplifications: masses are integers in units of 10⁻⁶; a C string is a `String`, its `strlen` the
number of bytes in UTF-8.
-/
import Mathlib.Data.Int.Notation

namespace Verif.Elements

/-- `elements`, 34-94: name, symbol, mass in units of 10⁻⁶. -/
def table : List (String × String × Nat) :=
  [("Hydrogen", "H", 1007900), ("Helium", "He", 4002600), ("Lithium", "Li", 6941000), ("Beryllium", "Be", 9012180),
   ("Boron", "B", 10810000), ("Carbon", "C", 12011000), ("Nitrogen", "N", 14006740), ("Oxygen", "O", 15999400),
   ("Fluorine", "F", 18998403), ("Neon", "Ne", 20179000), ("Sodium", "Na", 22989770), ("Magnesium", "Mg", 24305000),
   ("Aluminum", "Al", 26981540), ("Silicon", "Si", 28086000), ("Phosphorus", "P", 30973760), ("Sulfur", "S", 32060000),
   ("Chlorine", "Cl", 35453000), ("Argon", "Ar", 39948000), ("Potassium", "K", 39098000), ("Calcium", "Ca", 40080000),
   ("Scandium", "Sc", 44955900), ("Titanium", "Ti", 47900000), ("Vanadium", "V", 50941400),
   ("Cromium", "Cr", 51996000), ("Manganese", "Mn", 54938000), ("Iron", "Fe", 55847000), ("Cobalt", "Co", 58933200),
   ("Nickel", "Ni", 58700000), ("Copper", "Cu", 63546000), ("Zinc", "Zn", 65380000), ("Gallium", "Ga", 69720000),
   ("Germanium", "Ge", 72630000), ("Arsenic", "As", 74921600), ("Selenium", "Se", 78960000),
   ("Bromine", "Br", 79904000), ("Krypton", "Kr", 83800000), ("Rubidium", "Rb", 85467800),
   ("Strontium", "Sr", 87620000), ("Yttrium", "Y", 88905900), ("Zirconium", "Zr", 91220000),
   ("Niobium", "Nb", 92906400), ("Molybdenum", "Mo", 95940000), ("Technetium", "Tc", 97000000),
   ("Ruthenium", "Ru", 101070000), ("Rhodium", "Rh", 102905500), ("Palladium", "Pd", 106400000),
   ("Silver", "Ag", 107868000), ("Cadmium", "Cd", 112400000), ("Indium", "In", 114820000), ("Tin", "Sn", 118690000),
   ("Antimony", "Sb", 121750000), ("Tellurium", "Te", 127600000), ("Iodine", "I", 126904500),
   ("Xenon", "Xe", 131300000), ("Cesium", "Cs", 132905400), ("Barium", "Ba", 137340000),
   ("Lanthanum", "La", 138905500), ("Cerium", "Ce", 140120000), ("Praseodynium", "Pr", 140907700),
   ("Neodymium", "Nd", 144240000), ("Promethium", "Pm", 145000000), ("Samarium", "Sm", 150400000),
   ("Europium", "Eu", 151960000), ("Gadolinium", "Gd", 157250000), ("Terbium", "Tb", 158925400),
   ("Dysprosium", "Dy", 162500000), ("Holmium", "Ho", 164930400), ("Erbium", "Er", 167260000),
   ("Thulium", "Tm", 168934200), ("Ytterbium", "Yb", 173040000), ("Lutetium", "Lu", 174970000),
   ("Hafnium", "Hf", 178490000), ("Tantalum", "Ta", 180947900), ("Tungsten", "W", 183500000),
   ("Rhenium", "Re", 186207000), ("Osmium", "Os", 190200000), ("Iridium", "Ir", 192220000),
   ("Platinum", "Pt", 195090000), ("Gold", "Au", 196966500), ("Mercury", "Hg", 200590000),
   ("Thallium", "Tl", 204370000), ("Lead", "Pb", 207200000), ("Bismuth", "Bi", 208980400),
   ("Polonium", "Po", 209000000), ("Astatine", "At", 210000000), ("Radon", "Rn", 222000000),
   ("Francium", "Fr", 223000000), ("Radium", "Ra", 226025400), ("Actinium", "Ac", 227000000),
   ("Thorium", "Th", 232038100), ("Protactinium", "Pa", 231035900), ("Uranium", "U", 238029000),
   ("Neptunium", "Np", 237048200), ("Plutonium", "Pu", 244000000), ("Americium", "Am", 243000000),
   ("Curium", "Cm", 247000000), ("Berkelium", "Bk", 247000000), ("Californium", "Cf", 251000000),
   ("Einsteinium", "Es", 252000000), ("Fermium", "Fm", 257000000), ("Mendelevium", "Md", 258000000),
   ("Nobelium", "No", 259000000), ("Lawrencium", "Lr", 262000000), ("Rutherfordium", "Rf", 261000000),
   ("Dubnium", "Db", 262000000), ("Seaborgium", "XX", 263000000), ("Bohrium", "Bf", 262000000),
   ("Hassium", "Hs", 269000000), ("Meitnerium", "Mt", 278000000), ("Darmstadtium", "Ds", 281000000)]

/-- `ele_mass_from_number`, 100-107. The comparison with `size` converts `num` to the unsigned type `size_t`.
`none` is a read outside of the table. -/
def massFromNumber (num : Int) : Option Nat :=
  if num % 2 ^ 64 > (table.length : Int) ∨ num < 1 then some 0
  else (table[(num - 1).toNat]?).map fun e => e.2.2

/-- The loops: index of the first entry whose symbol (names of less than three characters) or name is `name`. -/
def find (name : String) : Option Nat :=
  if name.utf8ByteSize < 3 then table.findIdx? fun e => e.2.1 == name else table.findIdx? fun e => e.1 == name

/-- `ele_mass_from_name`, 113-127. -/
def massFromName (name : String) : Option Nat :=
  match find name with
  | some i => (table[i]?).map fun e => e.2.2
  | none => some 0

/-- `ele_number_from_name`, 133-147. -/
def numberFromName (name : String) : Nat :=
  match find name with
  | some i => i + 1
  | none => 0

end Verif.Elements
