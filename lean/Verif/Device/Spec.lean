import Verif.Device.Model

/-! # Specifications of C184-C186 -/

namespace Machin.Device.Spec

/-- `Part true m x`: following input modules from the network `m` leads to the module `x`, which is not a network; `Part false m x`:
following output modules (the input module where no output module is set). -/
inductive Part : Bool → Mod → Mod → Prop
  | inPlain {own out ps} : Part true (.net own (some (.plain ps)) out) (.plain ps)
  | inSeq {own out cs} : Part true (.net own (some (.seq cs)) out) (.seq cs)
  | inNet {own out own' i' o' x} : Part true (.net own' i' o') x → Part true (.net own (some (.net own' i' o')) out) x
  | outPlain {own inp ps} : Part false (.net own inp (some (.plain ps))) (.plain ps)
  | outSeq {own inp cs} : Part false (.net own inp (some (.seq cs))) (.seq cs)
  | outNet {own inp own' i' o' x} : Part false (.net own' i' o') x → Part false (.net own inp (some (.net own' i' o'))) x
  | outIn {own m x} : Part true (.net own (some m) none) x → Part false (.net own (some m) none) x

/-- All parameters are on the device `d`, and there is one. -/
def On (dev : Nat → Nat) (ps : List Nat) (d : Nat) : Prop := ps ≠ [] ∧ ∀ p ∈ ps, dev p = d

/-- `Leaf first m x`: going to the first (last) child again and again leads from `m` to `x`, which is not a container. -/
inductive Leaf (first : Bool) : Mod → Mod → Prop
  | plain {ps} : Leaf first (.plain ps) (.plain ps)
  | net {own i o} : Leaf first (.net own i o) (.net own i o)
  | seq {cs c x} : (if first then cs.head? else cs.getLast?) = some c → Leaf first c x → Leaf first (.seq cs) x

/-- All on one device, or none at all. -/
def Together (dev : Nat → Nat) (ps : List Nat) : Prop := ∀ p ∈ ps, ∀ q ∈ ps, dev p = dev q

end Machin.Device.Spec
