import Verif.Spec.Basic
/-!
# The rule on the contents of a value of indefinite length

ber.rs:29-33: "the contents must be a sequence of BERs, and must be terminated by 'EOC BER'.  (Single 'EOC BER' is allowed.)"
-/

namespace Bsn1.Spec

/-- The contents are values, none of them end-of-contents, and then end-of-contents, and nothing after it. -/
def RuleKept (c : List UInt8) : Prop := ∃ s, BerSeq s ∧ c = s ++ eoc

/-- The contents begin with contents that keep the rule, and `x` is what comes after. -/
def RuleKeptUpTo (c x : List UInt8) : Prop := ∃ k, RuleKept k ∧ c = k ++ x

end Bsn1.Spec
