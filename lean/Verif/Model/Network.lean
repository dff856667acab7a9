import Verif.Model.Packet

/-!
# Packets on a socket: `ccnpy/flic/tree/TreeIO.py` (`PacketNetworkWriter`)

Simplified: the socket is connected and the peer takes everything that is sent; errors of the network are not modelled.
-/

namespace Ccnpy

/-- flic/tree/TreeIO.py:282-286: the socket, `None` after `close`, and the bytes that have been given to it. -/
structure NetworkWriter where
  isOpen : Bool := true
  sent : Bytes := []
  deriving DecidableEq, Repr

/-- flic/tree/TreeIO.py:293-294 `put`; `None.sendall` raises AttributeError before the packet is looked at. -/
def NetworkWriter.put (p : Packet) : PyS NetworkWriter Unit := fun s =>
  if s.isOpen then
    match p.serialize with
    | .ok b => (.ok (), { s with sent := s.sent ++ b })
    | .error e => (.error e, s)
  else (.error .attributeError, s)

/-- flic/tree/TreeIO.py:288-291 `close` -/
def NetworkWriter.close : PyS NetworkWriter Unit := fun s => (.ok (), { s with isOpen := false })

/-- A sequence of `put`s. -/
def NetworkWriter.putAll : List Packet → PyS NetworkWriter Unit
  | [] => pure ()
  | p :: ps => do
    NetworkWriter.put p
    NetworkWriter.putAll ps

/-- The calls of a `PacketNetworkWriter`. -/
inductive NetworkOp where
  | put (p : Packet)
  | close

/-- One call; an exception goes to the caller, who may go on. -/
def NetworkWriter.step (s : NetworkWriter) : NetworkOp → NetworkWriter
  | .put p => (NetworkWriter.put p s).2
  | .close => (NetworkWriter.close s).2

end Ccnpy
