import Verif.Spec.Proto
/-!
# Bytes that the library reads as a protobuf parser does

Any bytes, not only those that the library would write: varints (of field keys, lengths and numbers) may have more groups than
needed.
-/

namespace Zpp.Spec

/-- The payload of a length-delimited record. -/
def isLen : PbPayload → Bool
  | .len _ => true
  | _ => false

mutual
/-- The record of a field of type `t` with payload `p`, encoded as `raw`, is one that the library reads as protobuf demands. The objects
nest at most `s` deep. A `bool` is the byte 0 or 1. -/
inductive PayPlain (env : Nat → Ty) : Nat → Ty → PbPayload → List UInt8 → Prop
  /-- A number, of the wire type of its field. -/
  | number {s : Nat} {t : Ty} {p : PbPayload} {raw : List UInt8} {v : Val} (h : protoScalar t p = some v)
      (hb : t = .bool → ∀ b ∈ raw, b.toNat < 2) : PayPlain env s t p raw
  /-- A single element of a repeated field of numbers, of their wire type. -/
  | one {s : Nat} {t e : Ty} {p : PbPayload} {raw : List UInt8} {v : Val} (ht : packedOf t = some e) (h : protoScalar e p = some v)
      (hb : e = .bool → ∀ b ∈ raw, b.toNat < 2) : PayPlain env s t p raw
  /-- A packed record, or a string. -/
  | packed {s : Nat} {t e : Ty} {bs raw : List UInt8} (ht : packedOf t = some e) (hb : e = .bool → ∀ b ∈ bs, b.toNat < 2) :
      PayPlain env s t (.len bs) raw
  /-- A string of a repeated field. -/
  | text {s : Nat} {t ch : Ty} {k : SeqKind} {sz : Option SizeTy} {bs raw : List UInt8} (ht : elemTy t = .seq k sz ch) :
      PayPlain env s t (.len bs) raw
  /-- A nested message. -/
  | message {s : Nat} {t : Ty} {maps : List (Nat × Nat)} {nums : List (Option Nat)} {fs : List Ty} {bs raw : List UInt8}
      (ht : msgOf env t = some (maps, nums, fs)) (h : BytesPlain env s (protoFields maps nums fs) [] bs) :
      PayPlain env (s + 1) t (.len bs) raw
  /-- A message of a repeated field, or the entry of a map. -/
  | element {s : Nat} {t : Ty} {maps : List (Nat × Nat)} {nums : List (Option Nat)} {fs : List Ty} {o : Val} {bs raw : List UInt8}
      (ht : msgOf env (elemTy t) = some (maps, nums, fs)) (ho : Initial env (elemTy t) o) (hs : depth o ≤ s + 1)
      (h : BytesPlain env s (protoFields maps nums fs) [] bs) : PayPlain env (s + 1) t (.len bs) raw
/-- Bytes of a message with the given fields: records with payloads as above, of declared fields. Fields with `firstOnly` have only one
record, which may be followed by single elements. `seen` are the numbers of fields with earlier records. -/
inductive BytesPlain (env : Nat → Ty) : Nat → List (Nat × Ty) → List Nat → List UInt8 → Prop
  | nil {s : Nat} {fields : List (Nat × Ty)} {seen : List Nat} : BytesPlain env s fields seen []
  | cons {s : Nat} {fields : List (Nat × Ty)} {seen : List Nat} {bs pay rest : List UInt8} {key : Nat} {p : PbPayload} {t : Ty}
      (hk : protoVarint bs = some (key, pay)) (hp : protoPayload (key % 8) pay = some (p, rest)) (ht : (key / 8, t) ∈ fields)
      (h : PayPlain env s t p (pay.take (pay.length - rest.length)))
      (hone : firstOnly env t = true → isLen p = true → key / 8 ∉ seen)
      (hs : BytesPlain env s fields (key / 8 :: seen) rest) : BytesPlain env s fields seen bs
end

end Zpp.Spec
