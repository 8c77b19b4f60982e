import Verif.Model.Bencode
/-
TESTS, not proofs: the cases of /repo/src/bencode/{decode,encode,dict}_test.go, run on the model by evaluation.
-/
set_option autoImplicit false

namespace Verif.Tests
open Verif.Bencode

mutual
/-- equality of bencode values (of dictionaries: same entries in the same order) -/
def same : Value → Value → Bool
  | .str a, .str b => a == b
  | .int64 a, .int64 b => a == b
  | .intN a, .intN b => a == b
  | .list a, .list b => sameList a b
  | .dict a, .dict b => sameDict a b
  | .other, .other => true
  | _, _ => false
/-- of lists -/
def sameList : List Value → List Value → Bool
  | [], [] => true
  | a :: as, b :: bs => same a b && sameList as bs
  | _, _ => false
/-- of entries -/
def sameDict : List (Bytes × Value) → List (Bytes × Value) → Bool
  | [], [] => true
  | a :: as, b :: bs => a.1 == b.1 && same a.2 b.2 && sameDict as bs
  | _, _ => false
end

/-- the value the decoder returns for a text -/
def decodes (text : String) (v : Value) : Bool :=
  match Decode (ascii text) [] with
  | .ok w => same v w
  | _ => false

/-- an error return -/
def isErr {α : Type} : Res α → Bool
  | .err _ => true
  | _ => false

/-- a normal return with this value -/
def isOk {α : Type} [BEq α] (v : α) : Res α → Bool
  | .ok w => v == w
  | _ => false

/-- the encoder returns the text without an error -/
def encodes (v : Value) (text : String) : Bool := (Encode v).1 == ascii text && (Encode v).2 == none

/-- string values -/
def s (t : String) : Value := .str (ascii t)

/-- entries -/
def e (k : String) (v : Value) : Bytes × Value := (ascii k, v)

/-! decode_test.go -/

-- TestDecode
#guard decodes "d5:hello5:worlde" (.dict [e "hello" (s "world")])

-- TestDecodeString
#guard decodes "1:a" (s "a")
#guard decodes "6:a word" (s "a word")
#guard decodes "18:a fairly long word" (s "a fairly long word")
#guard decodes "115:ahksudh akwughd uagh dfoih dfiaslhd iowlh fdoihdiash dkahfl halidhfiashialsfahsilfh ailsd hilshflas fklklakfdlkasfh"
  (s "ahksudh akwughd uagh dfoih dfiaslhd iowlh fdoihdiash dkahfl halidhfiashialsfahsilfh ailsd hilshflas fklklakfdlkasfh")
#guard isErr (Decode (ascii "12:") [])
#guard isErr (Decode (ascii "10:hi") [])

-- TestDecodeInt
#guard decodes "i0e" (.int64 0)
#guard decodes "i1e" (.int64 1)
#guard decodes "i-1e" (.int64 (-1))
#guard decodes "i6e" (.int64 6)
#guard decodes "i38e" (.int64 38)
#guard decodes "i435e" (.int64 435)
#guard decodes "i34635254e" (.int64 34635254)
#guard decodes "i-2000000000e" (.int64 (-2000000000))
#guard decodes "i2000000001e" (.int64 2000000001)
#guard isErr (Decode (ascii "ie") [])
#guard isErr (Decode (ascii "i00e") [])
#guard isErr (Decode (ascii "ig30e") [])
#guard isErr (Decode (ascii "i1o1e") [])
#guard isErr (Decode (ascii "i43") [])

-- TestDecodeDict
#guard decodes
  "d5:dict2d5:dict3d4:key7i7ee4:key5i5e4:key6i6ee5:dict4d4:key8i8ee4:key16:value14:key26:value24:key3i3e4:key4i4ee"
  (.dict [e "dict2" (.dict [e "dict3" (.dict [e "key7" (.int64 7)]), e "key5" (.int64 5), e "key6" (.int64 6)]),
    e "dict4" (.dict [e "key8" (.int64 8)]), e "key1" (s "value1"), e "key2" (s "value2"), e "key3" (.int64 3),
    e "key4" (.int64 4)])

-- TestDecodeList
#guard decodes "l2:e12:e22:e3i4ei5ei6el2:e7el2:e8l2:e9eee"
  (.list [s "e1", s "e2", s "e3", .int64 4, .int64 5, .int64 6, .list [s "e7"], .list [s "e8", .list [s "e9"]]])

/-! encode_test.go -/

-- TestEncodeInvalidType
#guard (Encode .other).2 != none

-- TestEncodeString
#guard encodes (s "a") "1:a"
#guard encodes (s "abc") "3:abc"
#guard encodes (s "hello there person how are you") "30:hello there person how are you"
#guard (Encode (s "")).2 != none

-- TestEncodeInt
#guard encodes (.intN 0) "i0e"
#guard encodes (.intN (-23)) "i-23e"
#guard encodes (.intN 135423) "i135423e"
#guard encodes (.intN 45) "i45e"
#guard encodes (.intN 432) "i432e"
#guard encodes (.intN (-213)) "i-213e"
#guard encodes (.intN 324) "i324e"
#guard encodes (.intN (-6435)) "i-6435e"
#guard encodes (.int64 (-34543234)) "i-34543234e"
#guard encodes (.int64 42346785983) "i42346785983e"

-- TestEncodeDict
#guard encodes
  (.dict [e "key0" (s "a value"), e "key1" (s "another value"), e "key2" (s "a longer value of a long length that is long"),
    e "key3" (s "a"), e "key4" (.intN 0), e "key5" (.intN (-174)), e "key6" (.intN 63847), e "key7" (.intN 23985623467),
    e "key8" (.intN 238497823), e "key9" (.intN 4723985), e "key10" (.intN 43242), e "key11" (.intN (-123)),
    e "key12" (s "value 12")])
  ("d4:key07:a value4:key113:another value5:key10i43242e5:key11i-123e5:key128:value 124:key244:a longer value of a long length that is long" ++
    "4:key31:a4:key4i0e4:key5i-174e4:key6i63847e4:key7i23985623467e4:key8i238497823e4:key9i4723985ee")
#guard (Encode (.dict [e "key" .other])).2 != none
#guard (Encode (.dict [e "key" (s "")])).2 != none
#guard (Encode (.dict [e "" (s "value")])).2 != none

-- TestEncodeList
#guard encodes (.list [s "elem1", s "e2", s "the third element", .intN 234, .intN 4268376598235, .intN (-2394785), .intN 0,
    .intN 2039759823755235])
  "l5:elem12:e217:the third elementi234ei4268376598235ei-2394785ei0ei2039759823755235ee"

/-! dict_test.go -/

/-- `testDict` -/
def testDict : Dict := [e "str" (s "a string"), e "int" (.int64 (-324)), e "uint" (.int64 4273), e "dict" (.dict []), e "list" (.list [])]

#guard isOk (ascii "a string") (testDict.getString (ascii "str"))
#guard isErr (testDict.getString (ascii "int"))
#guard isErr (testDict.getString (ascii "bad key"))
#guard isOk (-324) (testDict.getInt (ascii "int"))
#guard isErr (testDict.getInt (ascii "str"))
#guard isErr (testDict.getInt (ascii "bad key"))
#guard isOk 4273 (testDict.getUint (ascii "uint"))
#guard isErr (testDict.getUint (ascii "str"))
#guard isErr (testDict.getUint (ascii "bad key"))
#guard (match testDict.getDict (ascii "dict") with | .ok d => d.length == 0 | _ => false)
#guard isErr (testDict.getDict (ascii "str"))
#guard isErr (testDict.getDict (ascii "bad key"))
#guard (match testDict.getList (ascii "list") with | .ok l => l.length == 0 | _ => false)
#guard isErr (testDict.getList (ascii "str"))
#guard isErr (testDict.getList (ascii "bad key"))

end Verif.Tests
