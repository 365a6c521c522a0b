/-! # Exceptions -/

deriving instance DecidableEq for Except

namespace Machin

/-- Exceptions, as values. -/
inductive Err
  | value       -- ValueError
  | runtime     -- RuntimeError
  | index       -- IndexError
  | key         -- KeyError
  | type        -- TypeError
  | zeroDiv     -- ZeroDivisionError
  | attribute   -- AttributeError
  | assertion   -- AssertionError
  | other (code : Nat)  -- any exception raised by user code / torch
  deriving DecidableEq, Repr

end Machin
