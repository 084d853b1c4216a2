import Verif.Model.Examples
import Verif.Model.SerNet

/-! One-byte encoding of the example field, so that the protocols can be instantiated in examples. -/

namespace ZkSaas

/-- Elements of the example field as one byte; bytes from 17 on are refused. -/
instance wire17 : FixedWire (ZMod 17) where
  enc x := [UInt8.ofNat x.val]
  read b := match b with
    | [] => none
    | c :: rest => if c.toNat < 17 then some ((c.toNat : ZMod 17), rest) else none
  width := 1
  enc_length := fun _ => rfl
  read_enc := by
    intro x rest
    have h := ZMod.val_lt x
    have e : (UInt8.ofNat x.val).toNat = x.val := by
      rw [UInt8.toNat_ofNat']
      omega
    simp only [List.cons_append, List.nil_append]
    rw [e, if_pos h, ZMod.natCast_zmod_val]
  read_short := by
    intro b hb
    obtain rfl : b = [] := List.length_eq_zero_iff.1 (by omega)
    rfl

end ZkSaas
