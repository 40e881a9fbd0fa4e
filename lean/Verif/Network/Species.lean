import Mathlib.Data.Int.Notation
import Mathlib.Data.Nat.Notation

/-!
# Species lists

Model of the sequences of species, their ranges and species ids.  A species is its underlying `int`; values of a species list are `0 … N - 1`, gas first, then the `nV` vacancy species, then the `nI` interstitial species.
-/

namespace Xolotl.Network.Species

/-- `N`, `NumberOfInterstitialSpecies`, `NumberOfVacancySpecies`.  xolotl/core/include/xolotl/core/network/SpeciesEnumSequence.h:18-31. -/
structure SpeciesList where
  N : ℕ
  nI : ℕ
  nV : ℕ
  deriving DecidableEq

/-- `Sequence::first`.  xolotl/core/include/xolotl/core/network/EnumSequence.h:70-78. -/
def first : ℤ := 0

/-- `Sequence::last`.  EnumSequence.h:80-88. -/
def SpeciesList.last (l : SpeciesList) : ℤ := l.N - 1

/-- `Sequence::invalid`.  EnumSequence.h:90-98. -/
def invalid : ℤ := -1

/-- `lastNoI`.  SpeciesEnumSequence.h:124-132. -/
def SpeciesList.lastNoI (l : SpeciesList) : ℤ := if 0 < l.nI then l.last - l.nI - l.nV + 1 else l.last

/-- `sizeNoI` (in `std::size_t`, where the subtraction must not wrap).  SpeciesEnumSequence.h:114-122. -/
def SpeciesList.sizeNoI (l : SpeciesList) : ℕ := if 0 < l.nV then l.N - l.nI - l.nV + 1 else l.N

/-- `for (auto s : range)` from the value `c` visits the values listed and then ends, where `stop` is the end iterator: the loop compares with `!=` only.  EnumSequence.h:250-346. -/
inductive Visits (stop : ℤ) : ℤ → List ℤ → Prop
  | done : Visits stop stop []
  | next {c l} : c ≠ stop → Visits stop (c + 1) l → Visits stop c (c :: l)

/-- A range-based for loop over `EnumSequenceRange(first, last)`. -/
def Loop (first last : ℤ) (visited : List ℤ) : Prop := Visits (last + 1) first visited

/-- `SpeciesId`: an id and the number of species.  xolotl/core/include/xolotl/core/network/SpeciesId.h:88-90. -/
structure SpeciesId where
  id : ℤ
  nSpec : ℤ

/-- `operator bool`.  SpeciesId.h:49-53. -/
def SpeciesId.valid (s : SpeciesId) : Bool := decide (0 ≤ s.id) && decide (s.id < s.nSpec)

/-- `cast`; `none`: `InvalidSpeciesId` is thrown.  SpeciesId.h:62-70. -/
def SpeciesId.cast (s : SpeciesId) : Option ℤ := if s.valid then some s.id else none

/-- `operator++`.  SpeciesId.h:80-86. -/
def SpeciesId.next (s : SpeciesId) : SpeciesId := { s with id := s.id + 1 }

/-- What a network defines for its species: the list, the labels in order, the range for grouping and the map to moment ids. -/
structure Kind where
  list : SpeciesList
  labels : List String
  groupFirst : ℤ
  groupLast : ℤ
  moment : ℤ → ℤ

/-- PSITraits.h:56-129. -/
def psiFull : Kind := ⟨⟨5, 1, 1⟩, ["He", "D", "T", "V", "I"], 0, 4, fun s => if s = 4 then 3 else s⟩
/-- PSITraits.h:131-198. -/
def psiDeuterium : Kind := ⟨⟨4, 1, 1⟩, ["He", "D", "V", "I"], 0, 3, fun s => if s = 3 then 2 else s⟩
/-- PSITraits.h:200-267. -/
def psiTritium : Kind := ⟨⟨4, 1, 1⟩, ["He", "T", "V", "I"], 0, 3, fun s => if s = 3 then 2 else s⟩
/-- PSITraits.h:269-324. -/
def psiHelium : Kind := ⟨⟨3, 1, 1⟩, ["He", "V", "I"], 0, 2, fun s => if s = 2 then 1 else s⟩
/-- FeTraits.h:17-66. -/
def fe : Kind := ⟨⟨3, 1, 1⟩, ["He", "V", "I"], 0, 2, fun s => if s = 2 then 1 else s⟩
/-- NETraits.h:28-66, with the grouping of SpeciesEnumSequence.h:135-148. -/
def ne : Kind := ⟨⟨3, 1, 1⟩, ["Xe", "V", "I"], first, (SpeciesList.mk 3 1 1).lastNoI, id⟩
/-- ZrTraits.h:25-71. -/
def zr : Kind := ⟨⟨3, 1, 2⟩, ["V", "Basal", "I"], 0, 2, fun _ => 0⟩
/-- AlloyTraits.h:21-72. -/
def alloy : Kind := ⟨⟨6, 3, 3⟩, ["V", "Void", "Faulted", "I", "Perfect", "Frank"], 0, 5, fun _ => 0⟩

/-- All networks. -/
def networks : List Kind := [psiFull, psiDeuterium, psiTritium, psiHelium, fe, ne, zr, alloy]

/-- `isVacancy` by label: which overload applies depends on the number of interstitial species.  SpeciesEnumSequence.h:57-96. -/
def Kind.isVacancy (n : Kind) (label : String) : Bool :=
  if 2 < n.list.nI then label == "V" || label == "Void" || label == "Faulted"
  else if n.list.nI = 2 then label == "V" || label == "Basal"
  else if n.list.nI = 1 then label == "V"
  else false

end Xolotl.Network.Species
