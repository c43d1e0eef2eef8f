import Verif.Conform.Derive
import Verif.Model.Readme
/-!
# The programs of the READMEs and of bsn1_serde_macros/annotation_bsn1_serde.md, on the model

See `Verif/Conform/Length.lean`.
-/

namespace Bsn1.Conform
open Spec Readme

/-! ### bsn1_serde/README.md:24-151 -/

/-- `#[bsn1_serde(id = Sequence, tag_class = APPLICATION, tag_num = 0)]`: the identifier in `bindRequestSer` and `bindRequestDe` -/
example : idOf (attrOf false (some "Sequence") (some "APPLICATION") none (some "0")) = [0x60] := by decide +kernel

/-- `main` -/
example : back (fun m => bindRequestSer m 0xcc) (fun m => bindRequestDe m .foreign)
    (3, "uid=my_name,dc=my_company,dc=co,dc=jp", "open_sesami".toByteArray.data.toList, ()) = true := by decide +kernel

/-- What is sent, with shorter texts -/
example : made (fun m => toBer m (bindRequestSer m 0xcc) (3, "ab", [0x63, 0x64], ()))
    (fun _ b => decide (b = [0x60, 11, 2, 1, 3, 4, 2, 0x61, 0x62, 0, 2, 0x63, 0x64])) = true := by decide +kernel

/-! ### bsn1/README.md:53-199 -/

/-- The end of the program -/
example : made (fun m => newBindRequest m junk "uid=user,dc=my_company,dc=co,dc=jp" "open_sesami".toByteArray.data.toList) (fun _ b =>
    match parseBindRequest b with
    | .ok (.ok (name, password)) => name == "uid=user,dc=my_company,dc=co,dc=jp" && password == "open_sesami".toByteArray.data.toList
    | _ => false) = true := by decide +kernel

/-! ### bsn1_serde_macros/annotation_bsn1_serde.md -/

/-- Lines 64-112: `A(5)` and `X::A(5)` are serialized in the same way. -/
example : [Build.debug, .release].all (fun m =>
    decide (toDer m (Ty.ser m (Ty.struct [0x30] (.plain (.int .i32) .nil))) (5, ()) =
      toDer m (Ty.ser m (Ty.enum (.cons [0x30] (.plain (.int .i32) .nil)
        (.cons (idOf (attrOf false (some "Set") none none none)) (.plain (.int .i32) (.plain .string .nil)) .nil)))) (.inl (5, ())))) = true := by
  decide +kernel

/-- Lines 64-112: the identifiers of `B`, `C` and `D` -/
example : idOf (attrOf false (some "Set") none none none) = [0x31] ∧
    idOf (attrOf false (some "UTF8String") (some "APPLICATION") none (some "0")) = [0x40] ∧
    idOf (attrOf false none (some "APPLICATION") (some "PRIMITIVE") (some "0x10")) = [0x50] := by decide +kernel

/-- Lines 149-189: the skipped fields have the default value, and that of `A::one`. -/
example : readAs (Ty.struct [0x30] (.plain (.int .i32) (.plain .string (.skip (0 : Int) (.skip (1 : Int) .nil))))) (1, "foo", 2, 3, ())
    (1, "foo", 0, 1, ()) = true := by decide +kernel

/-- `A` of lines 228-277 -/
def pairAsU16 : Ty (Int × Int) := .conv (.int .u16) (fun v => v.1 * 256 + v.2) (.from_ fun n => (n / 256, n % 256))

/-- Lines 228-277: `A` -/
example : readAs pairAsU16 (1, 2) (1, 2) = true ∧
    made (fun m => toDer m (Ty.ser m pairAsU16) (1, 2)) (fun m b => decide (fromDer (De.int m .u16) b = .ok (1 * 256 + 2))) = true := by decide +kernel

/-- Lines 228-277: `B` -/
example : idOf (attrOf false none (some "PRIVATE") none none) = [0xf0] ∧
    readAs (Ty.struct [0xf0] (.conv .octetString nameTo (.tryFrom (nameBack .foreign)) .nil)) ("foo", ()) ("foo", ()) = true := by decide +kernel

/-- Lines 287-333: `A` -/
example : readAs (Ty.transparent (.plain .string .nil)) ("foo", ()) ("foo", ()) = true ∧
    made (fun m => toDer m (Ty.ser m (Ty.transparent (.plain .string .nil))) ("foo", ())) (fun m b => decide (fromDer (De.string m) b = .ok "foo")) = true := by
  decide +kernel

/-- `B` of lines 287-333 -/
def textAlone : Ty (String × Int × Unit) := .transparent (.conv .octetString nameTo (.tryFrom (nameBack .foreign)) (.skip 0 .nil))

/-- Lines 287-333: `B` -/
example : readAs textAlone ("bar", 10, ()) ("bar", 0, ()) = true ∧
    made (fun m => toDer m (Ty.ser m textAlone) ("bar", 10, ())) (fun _ b => decide (fromDer De.octetString b = .ok (nameTo "bar"))) = true := by decide +kernel

end Bsn1.Conform
