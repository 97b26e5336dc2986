import Verif.Lemmas.Wr
import Verif.Lemmas.Ends

/-! # Success of writing: annotations and attributes -/

namespace Verif
open Spec Sig

section
open Wr
variable {p : Prop}

mutual
theorem wr_value : (v : AnnValue) → Wr p v.write (constsValue v) []
  | .byte x => by rw [AnnValue.write, constsValue]; exact skip num (last (idx (lit (fun h => h) rfl fun _ _ => Iff.rfl)))
  | .char x => by rw [AnnValue.write, constsValue]; exact skip num (last (idx (lit (fun h => h) rfl fun _ _ => Iff.rfl)))
  | .double x => by rw [AnnValue.write, constsValue]; exact skip num (last (idx (lit (fun h => h) rfl fun _ _ => Iff.rfl)))
  | .float x => by rw [AnnValue.write, constsValue]; exact skip num (last (idx (lit (fun h => h) rfl fun _ _ => Iff.rfl)))
  | .int x => by rw [AnnValue.write, constsValue]; exact skip num (last (idx (lit (fun h => h) rfl fun _ _ => Iff.rfl)))
  | .long x => by rw [AnnValue.write, constsValue]; exact skip num (last (idx (lit (fun h => h) rfl fun _ _ => Iff.rfl)))
  | .short x => by rw [AnnValue.write, constsValue]; exact skip num (last (idx (lit (fun h => h) rfl fun _ _ => Iff.rfl)))
  | .boolean x => by rw [AnnValue.write, constsValue]; exact skip num (last (idx (lit (fun h => h) rfl fun _ _ => Iff.rfl)))
  | .string s => by rw [AnnValue.write, constsValue]; exact skip num (last wutf8)
  | .enum t n => by rw [AnnValue.write, constsValue]; exact skip num (cons (c := [_]) wtype (last wutf8))
  | .cls none => by rw [AnnValue.write, constsValue]; exact skip num (last wutf8)
  | .cls (some t) => by rw [AnnValue.write, constsValue]; exact skip num (last wutf8)
  | .annotation t vs => by
    rw [AnnValue.write, constsValue]
    exact skip num (cons (c := [_]) wtype (skip num (last (wr_elems vs))))
  | .array vs => by
    rw [AnnValue.write, constsValue]; exact skip num (skip num (last (wr_values vs)))
theorem wr_values : (vs : List AnnValue) → Wr p (AnnValue.writeList vs) (constsValues vs) []
  | [] => by rw [AnnValue.writeList, constsValues]; exact pure _
  | v :: vs => by
    rw [AnnValue.writeList, constsValues]; exact cons (wr_value v) (last (wr_values vs))
theorem wr_elems : (vs : List (Bytes × AnnValue)) → Wr p (AnnValue.writeElems vs) (constsElems vs) []
  | [] => by rw [AnnValue.writeElems, constsElems]; exact pure _
  | (k, v) :: vs => by
    rw [AnnValue.writeElems, constsElems]
    exact cons (c := [_]) wutf8 (cons (wr_value v) (last (wr_elems vs)))
end

theorem wr_ann (a : Annotation) : Wr p a.write (constsAnn a) [] :=
  cons (c := [_]) wtype (last (skip num (last (wr_elems _))))

theorem wr_anns {as : List Annotation} (h : p → Table as) :
    Wr p (wVec u16 Annotation.write as) (as.flatMap constsAnn) [] := tab h fun a _ => wr_ann a

theorem wr_tann {T : Type} {w : T → Ins Bytes} {a : TypeAnnotation T} (hw : Wr p (w a.target) [] [])
    (h : p → a.path.length < 256) : Wr p (TypeAnnotation.write w a) (constsTypeAnn a) [] := by
  refine skip hw (skip (plain h fun p _ => ?_) (cons (c := [_]) wtype (last (skip num (last (wr_elems _))))))
  cases p <;> exact skip num (skip num nil)

theorem wr_tanns {T : Type} {w : T → Ins Bytes} {as : List (TypeAnnotation T)} (hw : ∀ a ∈ as, Wr p (w a.target) [] [])
    (h : p → FitsTypeAnns as) : Wr p (wVec u16 (TypeAnnotation.write w) as) (as.flatMap constsTypeAnn) [] :=
  tab (fun hp => (h hp).1) fun a ha => wr_tann (hw a ha) fun hp => (h hp).2 a ha

theorem wr_classTarget (t : ClassTarget) : Wr p t.write [] [] := by
  cases t
  · exact skip num (skip num nil)
  · exact skip num (skip num nil)
  · exact skip num (skip num (skip num nil))

theorem wr_methodTarget (t : MethodTarget) : Wr p t.write [] [] := by
  cases t
  · exact skip num (skip num nil)
  · exact skip num (skip num (skip num nil))
  · exact skip num nil
  · exact skip num nil
  · exact skip num (skip num nil)
  · exact skip num (skip num nil)

theorem wr_fieldTarget (t : FieldTarget) : Wr p t.write [] [] := by
  cases t
  exact skip num nil

/-! ## Attributes -/

theorem wr_fieldAttr {a : FieldAttr} (h : p → FitsFieldAttr a) : Wr p a.write (constsFieldAttr a) [] := by
  cases a with
  | deprecated => exact attr nil
  | synthetic => exact attr nil
  | signature s => exact attr wsig
  | constantValue k => exact attr (idx (const k))
  | visible as => exact attr (wr_anns h)
  | invisible as => exact attr (wr_anns h)
  | visibleType as => exact attr (wr_tanns (fun _ _ => wr_fieldTarget _) h)
  | invisibleType as => exact attr (wr_tanns (fun _ _ => wr_fieldTarget _) h)
  | raw a => exact rawAttr

theorem wr_field {f : Field} (h : p → FitsField f) : Wr p f.write (constsField f) [] :=
  skip flags (cons (c := [_]) wutf8 (cons (c := [_]) wtype (last (tab (fun hp => (h hp).1) fun a ha =>
    wr_fieldAttr fun hp => (h hp).2 a ha))))

theorem wr_module {m : Module} (h : p → FitsModule m) : Wr p m.write (constsModule m) [] := by
  have h1 := fun hp => (h hp).1
  have h2 := fun hp => (h hp).2.1
  have h3 := fun hp => (h hp).2.2.1
  have h4 := fun hp => (h hp).2.2.2.1
  have h5 := fun hp => (h hp).2.2.2.2.1
  have h6 := fun hp => (h hp).2.2.2.2.2.1
  have h7 := fun hp => (h hp).2.2.2.2.2.2.1
  have h8 := fun hp => (h hp).2.2.2.2.2.2.2
  exact cons wstr19 (skip flags (cons utf8Opt
    (cons (tab h1 fun r hr => cons wstr19 (skip flags (last utf8Opt)))
    (cons (tab h2 fun r hr => cons wstr20 (skip flags (last (tab (fun hp => h6 hp r hr) fun s _ => wstr19))))
    (cons (tab h3 fun r hr => cons wstr20 (skip flags (last (tab (fun hp => h7 hp r hr) fun s _ => wstr19))))
    (cons (tab h4 fun s _ => wstr7)
    (last (tab h5 fun r hr => cons wstr7 (last (tab (fun hp => h8 hp r hr) fun s _ => wstr7))))))))))

theorem legible_encode {s : Bytes} (h : Legible s) : ∃ bs, Mutf8.encode s = .ok bs := by
  rcases hc : Wtf8.codepoints s with _ | cs
  · exact absurd hc (legible_codepoints h)
  · exact ⟨_, by rw [Mutf8.encode, hc]⟩

theorem wr_classAttr {a : ClassAttr} (h : p → FitsClassAttr a) : Wr p a.writeOther (constsClassAttr a) [] := by
  cases a with
  | signature s => exact attr wsig
  | deprecated => exact attr nil
  | synthetic => exact attr nil
  | sourceFile s => exact attr wutf8
  | innerClasses xs =>
    exact attr (tab h fun x hx => cons wstr7 (cons clsOpt (cons1 utf8Opt (skip flags nil))))
  | enclosingMethod o m =>
    exact attr (cons wstr7 (last (opt fun p => nat _ _)))
  | debugExtension s => exact attr (lift fun hp => legible_encode (h hp))
  | bootstrapMethods ms => exact nil
  | module_ m => exact attr (wr_module h)
  | modulePackages ps => exact attr (tab h fun s _ => wstr20)
  | mainClass o => exact attr wstr7
  | nestHost o => exact attr wstr7
  | nestMembers ps => exact attr (tab h fun s _ => wstr7)
  | visible as => exact attr (wr_anns h)
  | invisible as => exact attr (wr_anns h)
  | visibleType as => exact attr (wr_tanns (fun _ _ => wr_classTarget _) h)
  | invisibleType as => exact attr (wr_tanns (fun _ _ => wr_classTarget _) h)
  | raw a => exact rawAttr

end
end Verif
