import Verif.Abi

/-!
# Solidity events

What the Solidity ABI specification says about the topics of events
(docs.soliditylang.org, "Encoding of Indexed Event Parameters").  Independent of the compiled code.
-/

namespace Abi

mutual
/-- The parts of an indexed parameter, one after the other, without offsets and lengths; byte strings are padded. -/
def inPlace : Val → List UInt8
  | .word n => word n
  | .bytes bs => pad bs
  | .array vs => inPlaces vs
  | .tuple vs => inPlaces vs
def inPlaces : List Val → List UInt8
  | [] => []
  | v :: vs => inPlace v ++ inPlaces vs
end

/-- The topic of an indexed parameter: words are topics themselves; of anything else the topic is a hash, of byte strings
without padding. -/
def topic (K : List UInt8 → Nat) : Val → List UInt8
  | .word n => word n
  | .bytes bs => word (K bs)
  | .array vs => word (K (inPlaces vs))
  | .tuple vs => word (K (inPlaces vs))

/-- The log of an event: the number of topics, then the topics and the data as they are handed to the host.  `sig` is the hash
of the signature, `none` for anonymous events; `ixs` are the indexed parameters, `us` the others. -/
def log (K : List UInt8 → Nat) (sig : Option Nat) (ixs us : List Val) : Nat × List UInt8 :=
  let ts := sig.toList.map word ++ ixs.map (topic K)
  (ts.length, ts.flatten ++ encTuple us)

end Abi
