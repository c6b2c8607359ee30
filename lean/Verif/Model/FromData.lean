import Verif.Model.Buffer

/-! Model of `ReplayBuffer.from_data`, `tianshou/data/buffer/base.py` lines 251-283. -/

namespace Verif.Buffer

variable {O A R : Type}

/-- `from_data` with datasets of equal lengths, given as their rows; the dataset `done` is the disjunction of the other two
flags. `set_batch` (lines 293-300) replaces the storage, only `_size` is set besides. -/
def Buf.fromData [Zero R] (rows : List (Trans O A R)) : Buf O A R :=
  let buf : Buf O A R := Buf.new rows.length {}
  if rows.length = 0 then buf
  else { buf with idx := { buf.idx with size := rows.length }, data := fun i => rows[i]? }

end Verif.Buffer
