import Verif.TypesBuffer.Model

/-!
Reading bitmaps.
-/

namespace Verif.TypesBuffer

/-- A bit of a bitmap. An empty bitmap means that all elements are present (types_buffer.h:86). -/
def getBit (ws : List Word) (i : Nat) : Bool :=
  ws.isEmpty || (ws[i / 32]?.getD 0#32).getLsbD (i % 32)

end Verif.TypesBuffer
