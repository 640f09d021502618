import Verif.Spec.Writers

/-!
# Specification: one writer after another
-/

namespace Hpelm.Spec
variable {M : Type} [Add M]

/-- Cell `i` of file `f` after the processes in the list have added their contributions, one after another.  Nothing is assumed of the
addition: it may round, so the order matters. -/
def oneByOne (c : WCtx M) (file0 : FId → Option (Nat → M)) (f : FId) (order : List Nat) (i : Nat) : M :=
  order.foldl (fun a p => a + c.contrib p f i) (base c file0 f i)

/-- File `f` holds what the processes of the list, each alone and one after another, would have left in it. -/
def HoldsInOrder (c : WCtx M) (file0 : FId → Option (Nat → M)) (s : WState M) (f : FId) (order : List Nat) : Prop :=
  ∃ v, s.file f = some v ∧ ∀ i < c.size f, v i = oneByOne c file0 f order i

end Hpelm.Spec
