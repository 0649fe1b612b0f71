/-! # The constants of the Marsaglia generators

Model of include/Lintel/MarsagliaRandom.hpp:135-185. -/

namespace Verif.Rng

/-- The sizes and multipliers of `Marsaglia<SIZE>`, `MarsagliaRandom.hpp:135-179`. -/
def consts : List (Nat × Nat) :=
  [(4096, 18782), (2048, 1047570), (1024, 123471786), (512, 123554632), (256, 8001634), (128, 8007626), (64, 647535442), (32, 547416522), (16, 487198574), (8, 716514398)]

/-- The sizes that have a name: huge, big, medium, small, tiny; `MarsagliaRandom.hpp:181-185`. -/
def namedSizes : List Nat := [4096, 1024, 256, 64, 8]

end Verif.Rng
