import Verif.Model.Error
/-
What an `Error` is made from, independently of how it is stored.
-/
namespace Vmap
namespace Spec

/-- The ways a program can come by an `Error`: the public constructors and `From` conversions. -/
inductive Origin
  /-- `Error::io(op, e)` -/
  | io (op : Operation) (e : IoError)
  /-- `Error::input(op, i)` -/
  | input (op : Operation) (i : Input)
  /-- `Error::last_os_error(op)` when `errno` is `code` -/
  | lastOs (op : Operation) (code : Nat)
  /-- `Error::kernel(op, code)` (macOS) -/
  | kernel (op : Operation) (code : Nat)
  /-- `Error::from(e)` for an `io::Error` -/
  | fromIo (e : IoError)

/-- The error that comes about this way. -/
def Origin.error : Origin → Error
  | .io op e => Error.io op e
  | .input op i => Error.input op i
  | .lastOs op code => Error.lastOsError op code
  | .kernel op code => Error.kernel op code
  | .fromIo e => Error.ofIo e

/-- The operating system's error code it carries, if any. -/
def Origin.code : Origin → Option Nat
  | .io _ e => e.os
  | .input _ _ => none
  | .lastOs _ code => some code
  | .kernel _ _ => none
  | .fromIo e => e.os

/-- The operation it names. -/
def Origin.op : Origin → Operation
  | .io op _ => op
  | .input op _ => op
  | .lastOs op _ => op
  | .kernel op _ => op
  | .fromIo _ => .none

/-- Its kind, given the kinds of system errors. -/
def Origin.kind (tab : SysTable) : Origin → IoKind
  | .io _ e => e.kind
  | .input _ _ => .invalidInput
  | .lastOs _ code => tab.kindOf (.os code)
  | .kernel _ code => tab.kindOf (.kernel code)
  | .fromIo e => e.kind

/-- The text of its cause. -/
def Origin.cause (tab : SysTable) : Origin → String
  | .io _ e => e.msg
  | .input _ .invalidRange => "invalid range"
  | .lastOs _ code => tab.msgOf (.os code)
  | .kernel _ code => tab.msgOf (.kernel code)
  | .fromIo e => e.msg

end Spec
end Vmap
