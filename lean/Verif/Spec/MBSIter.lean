/-!
# Specification for iterators: moves and where they lead

Written without reference to the model.
-/

namespace Heu

/-- The moves an iterator offers. -/
inductive Move where
  | inc
  | dec
  | postInc
  | postDec
  | plus (k : Int)
  | minus (k : Int)
  | at (k : Int)

/-- By how many elements a move shifts the position. -/
def Move.shift : Move → Int
  | .inc => 1
  | .postInc => 1
  | .dec => -1
  | .postDec => -1
  | .plus k => k
  | .at k => k
  | .minus k => -k

/-- The position after a sequence of moves, starting at `d`. -/
def positionAfter (d : Int) (ms : List Move) : Int := d + (ms.map Move.shift).sum

end Heu
