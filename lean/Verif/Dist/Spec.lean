import Verif.Prio.Spec

/-! # Specifications for the distributed buffers -/

namespace Machin.Dist.Spec

/-- Ring positions written by storing `len` transitions after `total` earlier ones. -/
def written (N total len : Nat) : List Nat := (List.range len).map fun j => (total + j) % N

end Machin.Dist.Spec
