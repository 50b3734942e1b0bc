import Verif.Stratum.Mining

namespace Verif.Stratum

open Verif.Net Verif.Text

theorem little_wfix {w k : Nat} (h : 2 ^ w ≤ 256 ^ k) (x : BitVec w) : little w (wfix k x) = x := by
  unfold little wfix
  rw [leNat_leBytes _ _ (Nat.lt_of_lt_of_le x.isLt h)]
  simp

theorem wfix_little {w k : Nat} (h : 256 ^ k ≤ 2 ^ w) {b : Bytes} (hb : b.length = k) : wfix k (little w b) = b := by
  have hl : leNat b < 2 ^ w := by
    have := leNat_lt b
    rw [hb] at this
    omega
  unfold little wfix
  rw [BitVec.toNat_ofNat, Nat.mod_eq_of_lt hl]
  exact leBytes_leNat' k b hb

theorem big_wfix (x : BitVec 32) : big 32 (wfix 4 x).reverse = x := by
  unfold big
  rw [List.reverse_reverse]
  exact little_wfix (by decide) x

theorem hexRead_len {s : List Char} {b : Bytes} (h : hexRead s = some b) : b.length = s.length / 2 := by
  have := hexRead_length s b h
  omega

theorem readInt32_big (x : BitVec 32) : readInt32 (writeBig32 x) = .ok x := by
  unfold readInt32 writeBig32
  simp only [hexWrite_length, List.length_reverse, wfix_length, hexRead_write, big_wfix]
  rfl

theorem readNonce_big (x : BitVec 32) : readNonce (writeBig32 x) = .ok x := by
  unfold readNonce writeBig32
  simp only [hexWrite_length, List.length_reverse, wfix_length, hexRead_write, big_wfix]
  rfl

theorem readInt32_write (x : BitVec 32) : readInt32 (writeInt32 x) = .ok (big 32 (wfix 4 x)) := by
  unfold readInt32 writeInt32
  simp only [hexWrite_length, wfix_length, hexRead_write]
  rfl

theorem readBytes_write (b : Bytes) : readBytes (writeBytes b) = .ok b := by
  unfold readBytes writeBytes
  simp only [hexRead_write]

theorem reverseThree_length : ∀ b : Bytes, (reverseThree b).length = b.length
  | a :: b :: c :: d :: l => by simp [reverseThree, reverseThree_length l]
  | [] => rfl
  | [_] => rfl
  | [_, _] => rfl
  | [_, _, _] => rfl

theorem reverseFour_length : ∀ b : Bytes, (reverseFour b).length = b.length
  | a :: b :: c :: d :: l => by simp [reverseFour, reverseFour_length l]
  | [] => rfl
  | [_] => rfl
  | [_, _] => rfl
  | [_, _, _] => rfl

theorem readDigest_write (x : BitVec 256) :
    readDigest (writeDigest x) = .ok (little 256 (reverseFour (reverseThree (wfix 32 x)))) := by
  unfold readDigest writeDigest
  simp only [hexWrite_length, reverseThree_length, wfix_length, hexRead_write]
  rfl

end Verif.Stratum
