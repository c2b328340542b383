import Mathlib.Data.Fintype.Basic
import Mathlib.Data.Finset.Card
import Mathlib.Algebra.Order.Field.Basic

/-!
Model of `rfs::ORBDescriptor` (include/ORB.hpp).
-/

namespace RFS
namespace ORB

/-- `std::bitset<256>`, line 47. -/
abbrev Desc := Fin 256 → Bool

/-- `operator^` of bitsets. -/
def bxor (a b : Desc) : Desc := fun i => xor (a i) (b i)

/-- `operator&` of bitsets. -/
def band (a b : Desc) : Desc := fun i => a i && b i

/-- `bitset::count`. -/
def count (a : Desc) : Nat := (Finset.univ.filter fun i => a i = true).card

/-- `distance`, lines 78-80. -/
def distance (a b : Desc) : Nat := count (bxor a b)

/-- `sample`, lines 58-68, with the three random descriptors drawn (mask and the two of the loop): the bits set in all three are flipped. -/
def sample (d r0 r1 r2 : Desc) : Desc := bxor d (band (band r0 r1) r2)

/-- `likelihood`, lines 69-72. -/
def likelihood {K : Type*} [Field K] (d a : Desc) : K := ((1 / (21 / 10)) / (1 - 1 / (21 / 10))) ^ distance d a * (1 / (11 / 10)) ^ 32

/-- `falseAlarmLikelihood`, lines 73-76. -/
def falseAlarmLikelihood (K : Type*) [Field K] : K := (1 / 2 / (1 - 1 / (21 / 10))) ^ 256 * (1 / (11 / 10)) ^ 32

end ORB
end RFS
