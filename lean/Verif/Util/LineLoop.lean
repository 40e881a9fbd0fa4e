import Verif.Util.Tokenizer

/-!
# Reading files line by line

Model of the loops that read a reaction file or a flux profile with `std::getline`, as relations between the text and what is done with it; a loop that does not end relates the text to nothing.

`std::getline` is part of the C++ library; its contract is assumed as follows.  On a stream in a good state the string is emptied, then filled with the characters up to the next line break, which is removed; at the end of the text the stream leaves the good state.  On a stream that is not in a good state *the string is left as it was*.
-/

namespace Xolotl.Util.LineLoop

open Xolotl.Util.Tokenizer

/-- An input stream: the text that was not read yet and whether the stream is in a good state. -/
structure Stream where
  rest : List Char
  good : Bool

/-- A file that was just opened. -/
def Stream.start (text : List Char) : Stream := ⟨text, true⟩

/-- The characters before the first line break and, if there is one, those after it. -/
def cut : List Char → List Char × Option (List Char)
  | [] => ([], none)
  | c :: r => if c = '\n' then ([], some r) else (c :: (cut r).1, (cut r).2)

/-- `getline(stream, line)`: the new stream and the new content of `line`. -/
def getline (s : Stream) (line : List Char) : Stream × List Char :=
  if s.good then
    match cut s.rest with
    | (l, some r) => (⟨r, true⟩, l)
    | (l, none) => (⟨[], false⟩, l)
  else (s, line)

/-- The word that ends the first part of a reaction file. -/
def word : List Char := "Reactions".toList

/-- `while (tokens.size() > 0) { … getline; tokens = …; }`: the lines the body was run for, in order.
xolotl/core/include/xolotl/core/network/impl/NEReactionNetwork.tpp:158-275. -/
inductive Plain : Stream → List Char → List (List Char) → Prop
  | stop (s line) : tokens line = [] → Plain s line []
  | step (s line acc) : tokens line ≠ [] → Plain (getline s line).1 (getline s line).2 acc → Plain s line (line :: acc)

/-- The same loop with `if (line == "Reactions") break;` after `getline`; also gives the stream and the line after the loop.
xolotl/core/include/xolotl/core/network/impl/NEReactionNetwork.tpp:36-44, 92-150; xolotl/solver/src/monitor/PetscMonitor0D.cpp:193-225; xolotl/core/include/xolotl/core/flux/FuelFitFluxHandler.h:144-181. -/
inductive Upto : Stream → List Char → List (List Char) → Stream → List Char → Prop
  | stop (s line) : tokens line = [] → Upto s line [] s line
  | found (s line) : tokens line ≠ [] → (getline s line).2 = word → Upto s line [line] (getline s line).1 (getline s line).2
  | step (s line acc s' line') : tokens line ≠ [] → (getline s line).2 ≠ word → Upto (getline s line).1 (getline s line).2 acc s' line' →
      Upto s line (line :: acc) s' line'

/-- `readClusters` and the first part of `readReactions`: the lines about clusters.  xolotl/core/include/xolotl/core/network/impl/NEReactionNetwork.tpp:28-44, 84-150. -/
def Clusters (text : List Char) (ls : List (List Char)) (s : Stream) (line : List Char) : Prop :=
  Upto (getline (.start text) []).1 (getline (.start text) []).2 ls s line

/-- `readReactions`: the lines about clusters and the lines about reactions.  xolotl/core/include/xolotl/core/network/impl/NEReactionNetwork.tpp:84-275. -/
def Reactions (text : List Char) (cl re : List (List Char)) : Prop :=
  ∃ s line, Clusters text cl s line ∧ Plain (getline s line).1 (getline s line).2 re

/-- Outcome of reading the parameters of a custom flux. -/
inductive Custom
  /-- cluster lines and fit lines -/
  | done (l : List (List Char × List Char))
  /-- exception: not three cluster parameters -/
  | badCluster
  /-- exception: not seventeen fit parameters -/
  | badFit
  deriving DecidableEq

/-- One more pair in front. -/
def Custom.push (p : List Char × List Char) : Custom → Custom
  | .done l => .done (p :: l)
  | r => r

/-- The loop of `CustomFitFluxHandler::initializeFluxHandler`, for clusters that exist and numbers that can be read.
xolotl/core/include/xolotl/core/flux/CustomFitFluxHandler.h:125-257. -/
inductive CustomLoop : Stream → List Char → Custom → Prop
  | stop (s line) : tokens line = [] → CustomLoop s line (.done [])
  | badCluster (s line) : tokens line ≠ [] → (tokens line).length ≠ 3 → CustomLoop s line .badCluster
  | badFit (s line) : (tokens line).length = 3 → (tokens (getline s line).2).length ≠ 17 → CustomLoop s line .badFit
  | step (s line r) : (tokens line).length = 3 → (tokens (getline s line).2).length = 17 →
      CustomLoop (getline (getline s line).1 (getline s line).2).1 (getline (getline s line).1 (getline s line).2).2 r →
      CustomLoop s line (r.push (line, (getline s line).2))

/-- The whole file.  xolotl/core/include/xolotl/core/flux/CustomFitFluxHandler.h:125-257. -/
def CustomFile (text : List Char) (r : Custom) : Prop :=
  CustomLoop (getline (.start text) []).1 (getline (.start text) []).2 r

end Xolotl.Util.LineLoop
