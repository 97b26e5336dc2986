import Verif.Model.ReleaseRead
import Verif.Lemmas.Release

/-! # Readers with and without overflow checks agree unless the checks panic -/

namespace Verif
open Spec Sig

/-- The second outcome is the first, unless that is a panic. -/
def Agrees {α : Type} (x y : Res α) : Prop := x ≠ .error .panic → y = x

theorem Agrees.refl {α : Type} (x : Res α) : Agrees x x := fun _ => rfl

theorem Agrees.cases {α : Type} {x y : Res α} (h : Agrees x y) :
    x = .error .panic ∨ (∃ e, x = .error e ∧ y = .error e) ∨ ∃ a, x = .ok a ∧ y = .ok a := by
  rcases x with e | a
  · by_cases he : e = .panic
    · subst he
      exact .inl rfl
    · exact .inr (.inl ⟨e, rfl, h (fun hh => he (by cases hh; rfl))⟩)
  · exact .inr (.inr ⟨a, rfl, h nofun⟩)

theorem Agrees.ite {α : Type} {c : Prop} [Decidable c] {x y x' y' : Res α} (h1 : Agrees x x') (h2 : Agrees y y') :
    Agrees (if c then x else y) (if c then x' else y') := by
  split
  · exact h1
  · exact h2

/-- One more call of which the outcomes agree: the cases in which the rest is not reached are closed. -/
macro "agree" t:term " with " a:Lean.Parser.Tactic.rcasesPatLo : tactic => `(tactic| (
  rcases Agrees.cases $t with hx | ⟨_, hx, hy⟩ | ⟨$a, hx, hy⟩
  · simp only [hx]
    exact fun hh => absurd rfl hh
  · simp only [hx, hy]
    exact Agrees.refl _
  simp only [hx, hy]))

namespace Sig

mutual
theorem typeSigW_agrees : ∀ (n : Nat) (s : Str), Agrees (typeSig n s) (typeSigW n s)
  | 0, _ => by rw [typeSig, typeSigW]; exact .refl _
  | _ + 1, [] => by rw [typeSig, typeSigW]; exact .refl _
  | n + 1, c :: cs => by
    rw [typeSig, typeSigW]
    rcases primSig c with _ | t
    rotate_left
    · exact .refl _
    · refine .ite ?_ (.refl _)
      agree refTypeSigW_agrees n (c :: cs) with ⟨a, i⟩
      exact .refl _
theorem refTypeSigW_agrees : ∀ (n : Nat) (s : Str), Agrees (refTypeSig n s) (refTypeSigW n s)
  | 0, _ => by rw [refTypeSig, refTypeSigW]; exact .refl _
  | _ + 1, [] => by rw [refTypeSig, refTypeSigW]; exact .refl _
  | n + 1, c :: cs => by
    rw [refTypeSig, refTypeSigW]
    refine .ite ?_ (.ite (.refl _) (.ite ?_ (.refl _)))
    · split
      · agree typeSigW_agrees n (JType.countBrackets cs).2 with ⟨a, i⟩
        exact .refl _
      · exact fun hh => absurd rfl hh
    · agree classTypeSigW_agrees n (c :: cs) with ⟨a, i⟩
      exact .refl _
theorem classTypeSigW_agrees : ∀ (n : Nat) (s : Str), Agrees (classTypeSig n s) (classTypeSigW n s)
  | 0, _ => by rw [classTypeSig, classTypeSigW]; exact .refl _
  | n + 1, s => by
    rw [classTypeSig, classTypeSigW]
    agree Agrees.refl (expect 0x4C s) with i
    agree Agrees.refl (packages i) with ⟨p, i1⟩
    agree simpleTypeSigW_agrees n i1 with ⟨m, i2⟩
    agree suffixesW_agrees n i2 with ⟨ss, i3⟩
    exact .refl _
theorem suffixesW_agrees : ∀ (n : Nat) (s : Str), Agrees (suffixes n s) (suffixesW n s)
  | 0, _ => by rw [suffixes, suffixesW]; exact .refl _
  | _ + 1, [] => by rw [suffixes, suffixesW]; exact .refl _
  | n + 1, c :: cs => by
    rw [suffixes, suffixesW]
    refine .ite ?_ (.refl _)
    agree simpleTypeSigW_agrees n cs with ⟨m, i⟩
    agree suffixesW_agrees n i with ⟨ss, i1⟩
    exact .refl _
theorem simpleTypeSigW_agrees : ∀ (n : Nat) (s : Str), Agrees (simpleTypeSig n s) (simpleTypeSigW n s)
  | 0, _ => by rw [simpleTypeSig, simpleTypeSigW]; exact .refl _
  | n + 1, s => by
    rw [simpleTypeSig, simpleTypeSigW]
    rcases s.dropWhile nameChar with _ | ⟨c, cs⟩
    · exact .refl _
    · refine .ite ?_ (.refl _)
      agree typeArgsW_agrees n cs with ⟨as, i⟩
      exact .refl _
theorem typeArgsW_agrees : ∀ (n : Nat) (s : Str), Agrees (typeArgs n s) (typeArgsW n s)
  | 0, _ => by rw [typeArgs, typeArgsW]; exact .refl _
  | _ + 1, [] => by rw [typeArgs, typeArgsW]; exact .refl _
  | n + 1, c :: cs => by
    rw [typeArgs, typeArgsW]
    refine .ite (.refl _) ?_
    agree typeArgW_agrees n (c :: cs) with ⟨a, i⟩
    agree typeArgsW_agrees n i with ⟨as, i1⟩
    exact .refl _
theorem typeArgW_agrees : ∀ (n : Nat) (s : Str), Agrees (typeArg n s) (typeArgW n s)
  | 0, _ => by rw [typeArg, typeArgW]; exact .refl _
  | _ + 1, [] => by rw [typeArg, typeArgW]; exact .refl _
  | n + 1, c :: cs => by
    rw [typeArg, typeArgW]
    refine .ite (.refl _) (.ite ?_ (.ite ?_ (.ite ?_ (.refl _))))
    · agree refTypeSigW_agrees n cs with ⟨a, i⟩
      exact .refl _
    · agree refTypeSigW_agrees n cs with ⟨a, i⟩
      exact .refl _
    · agree refTypeSigW_agrees n (c :: cs) with ⟨a, i⟩
      exact .refl _
end

theorem throwsSigW_agrees (s : Str) : Agrees (throwsSig s) (throwsSigW s) := by
  unfold throwsSig throwsSigW
  agree Agrees.refl (expect 0x5E s) with i
  rcases i with _ | ⟨c, cs⟩
  · exact .refl _
  simp only
  refine .ite ?_ (.refl _)
  agree classTypeSigW_agrees (enough (c :: cs)) (c :: cs) with ⟨a, i⟩
  exact .refl _

theorem interfaceBoundsW_agrees : ∀ (s i : Str), Agrees (interfaceBounds s i) (interfaceBoundsW s i)
  | [], _ => by rw [interfaceBounds, interfaceBoundsW]; exact .refl _
  | c :: cs, i => by
    rw [interfaceBounds, interfaceBoundsW]
    refine .ite ?_ (.refl _)
    agree refTypeSigW_agrees (enough cs) cs with ⟨b, i1⟩
    agree interfaceBoundsW_agrees cs i1 with ⟨bs, i2⟩
    exact .refl _

theorem typeParamW_agrees (s : Str) : Agrees (typeParam s) (typeParamW s) := by
  unfold typeParam typeParamW
  simp only
  generalize (s.dropWhile (· ≠ 0x3A)).drop 1 = chars
  rcases chars with _ | ⟨c, cs⟩
  · simp only
    agree interfaceBoundsW_agrees [] [] with ⟨bs, i⟩
    exact .refl _
  simp only
  by_cases hc : isRefStart c = true
  · rw [if_pos hc, if_pos hc]
    agree refTypeSigW_agrees (enough (c :: cs)) (c :: cs) with ⟨r, i⟩
    agree interfaceBoundsW_agrees (c :: cs) i with ⟨bs, i1⟩
    exact .refl _
  · rw [if_neg hc, if_neg hc]
    simp only
    agree interfaceBoundsW_agrees (c :: cs) (c :: cs) with ⟨bs, i1⟩
    exact .refl _

theorem typeParamsLoopW_agrees : ∀ (n : Nat) (s : Str), Agrees (typeParamsLoop n s) (typeParamsLoopW n s)
  | 0, _ => by rw [typeParamsLoop, typeParamsLoopW]; exact .refl _
  | _ + 1, [] => by rw [typeParamsLoop, typeParamsLoopW]; exact .refl _
  | n + 1, c :: cs => by
    rw [typeParamsLoop, typeParamsLoopW]
    refine .ite (.refl _) ?_
    agree typeParamW_agrees (c :: cs) with ⟨p, i⟩
    agree typeParamsLoopW_agrees n i with ⟨ps, i1⟩
    exact .refl _

theorem typeParamsW_agrees : ∀ (s : Str), Agrees (typeParams s) (typeParamsW s)
  | [] => by rw [typeParams, typeParamsW]; exact .refl _
  | c :: cs => by
    rw [typeParams, typeParamsW]
    refine .ite ?_ (.refl _)
    agree typeParamsLoopW_agrees (enough cs) cs with ⟨p, i⟩
    exact .refl _

theorem retSigW_agrees : ∀ (s : Str), Agrees (retSig s) (retSigW s)
  | [] => by rw [retSig, retSigW]; exact .refl _
  | c :: cs => by
    rw [retSig, retSigW]
    refine .ite (.refl _) ?_
    agree typeSigW_agrees (enough (c :: cs)) (c :: cs) with ⟨p, i⟩
    exact .refl _

theorem paramsLoopW_agrees : ∀ (n : Nat) (s : Str), Agrees (paramsLoop n s) (paramsLoopW n s)
  | 0, _ => by rw [paramsLoop, paramsLoopW]; exact .refl _
  | _ + 1, [] => by rw [paramsLoop, paramsLoopW]; exact .refl _
  | n + 1, c :: cs => by
    rw [paramsLoop, paramsLoopW]
    refine .ite ?_ (.refl _)
    agree typeSigW_agrees (enough (c :: cs)) (c :: cs) with ⟨p, i⟩
    agree paramsLoopW_agrees n i with ⟨ps, i1⟩
    exact .refl _

theorem throwsLoopW_agrees : ∀ (n : Nat) (s : Str), Agrees (throwsLoop n s) (throwsLoopW n s)
  | 0, _ => by rw [throwsLoop, throwsLoopW]; exact .refl _
  | _ + 1, [] => by rw [throwsLoop, throwsLoopW]; exact .refl _
  | n + 1, c :: cs => by
    rw [throwsLoop, throwsLoopW]
    refine .ite ?_ (.refl _)
    agree throwsSigW_agrees (c :: cs) with ⟨p, i⟩
    agree throwsLoopW_agrees n i with ⟨ps, i1⟩
    exact .refl _

theorem methodSigW_agrees (s : Str) : Agrees (methodSig s) (methodSigW s) := by
  unfold methodSig methodSigW
  agree typeParamsW_agrees s with ⟨ps, i⟩
  agree Agrees.refl (expect 0x28 i) with i1
  agree paramsLoopW_agrees (enough i1) i1 with ⟨qs, i2⟩
  agree Agrees.refl (expect 0x29 i2) with i3
  agree retSigW_agrees i3 with ⟨r, i4⟩
  agree throwsLoopW_agrees (enough i4) i4 with ⟨ts, i5⟩
  exact .refl _

theorem interfacesLoopW_agrees : ∀ (n : Nat) (s : Str), Agrees (interfacesLoop n s) (interfacesLoopW n s)
  | 0, _ => by rw [interfacesLoop, interfacesLoopW]; exact .refl _
  | _ + 1, [] => by rw [interfacesLoop, interfacesLoopW]; exact .refl _
  | n + 1, c :: cs => by
    rw [interfacesLoop, interfacesLoopW]
    refine .ite ?_ (.refl _)
    agree classTypeSigW_agrees (enough (c :: cs)) (c :: cs) with ⟨p, i⟩
    agree interfacesLoopW_agrees n i with ⟨ps, i1⟩
    exact .refl _

theorem classSigW_agrees (s : Str) : Agrees (classSig s) (classSigW s) := by
  unfold classSig classSigW
  agree typeParamsW_agrees s with ⟨ps, i⟩
  agree classTypeSigW_agrees (enough i) i with ⟨c, i1⟩
  agree interfacesLoopW_agrees (enough i1) i1 with ⟨qs, i2⟩
  exact .refl _

theorem dropRest_agrees {α : Type} {x y : Res (α × Str)} (h : Agrees x y) : Agrees (dropRest x) (dropRest y) := by
  unfold dropRest
  agree h with ⟨a, i⟩
  exact .refl _

theorem parseRefW_agrees (s : Str) : Agrees (parseRef s) (parseRefW s) := dropRest_agrees (refTypeSigW_agrees _ _)
theorem parseMethodW_agrees (s : Str) : Agrees (parseMethod s) (parseMethodW s) := dropRest_agrees (methodSigW_agrees _)
theorem parseClassW_agrees (s : Str) : Agrees (parseClass s) (parseClassW s) := dropRest_agrees (classSigW_agrees _)

end Sig

theorem parseTypeW_agrees (s : Bytes) : Agrees (JType.parseType s) (JType.parseTypeW s) := JType.parseTypeW_eq

theorem okOrNone_agrees {α : Type} {x y : Res α} (h : Agrees x y) : Agrees (okOrNone x) (okOrNone y) := by
  rcases h.cases with rfl | ⟨e, rfl, rfl⟩ | ⟨a, rfl, rfl⟩
  · exact fun hh => absurd rfl hh
  · exact .refl _
  · exact .refl _

namespace Pool
variable (P : Pool)

theorem nameAndTypeW_agrees (i : UInt16) : Agrees (nameAndType P i) (nameAndTypeW P i) := by
  unfold nameAndType nameAndTypeW
  rcases P i with _ | e
  · exact .refl _
  cases e <;> simp only <;> try exact .refl _
  rename_i n t
  rcases wtf8 P n with _ | n
  · exact .refl _
  rcases wtf8 P t with _ | t
  · exact .refl _
  simp only
  agree okOrNone_agrees (parseTypeW_agrees t) with o
  exact .refl _

theorem memberPartsW_agrees (b : Bool) (o nt : UInt16) : Agrees (memberParts P b o nt) (memberPartsW P b o nt) := by
  unfold memberParts memberPartsW
  rcases indirect P 7 o with _ | c
  · exact .refl _
  simp only
  agree nameAndTypeW_agrees P nt with o
  exact .refl _

theorem memberW_agrees (i : UInt16) : Agrees (member P i) (memberW P i) := by
  unfold member memberW
  rcases P i with _ | e
  · exact .refl _
  cases e <;> simp only <;> first | exact .refl _ | exact memberPartsW_agrees P _ _ _

theorem methodHandleW_agrees (i : UInt16) : Agrees (methodHandle P i) (methodHandleW P i) := by
  unfold methodHandle methodHandleW
  rcases P i with _ | e
  · exact .refl _
  cases e <;> simp only <;> try exact .refl _
  rename_i k m
  agree memberW_agrees P m with o
  exact .refl _

theorem constantW_agrees (i : UInt16) : Agrees (constant P i) (constantW P i) := by
  have hm : Agrees (match member P i with | .ok m => Except.ok (m.map Constant.member) | .error e => .error e)
      (match memberW P i with | .ok m => Except.ok (m.map Constant.member) | .error e => .error e) := by
    agree memberW_agrees P i with o
    exact .refl _
  unfold constant constantW
  rcases h : P i with _ | e
  · exact hm
  cases e <;> simp only <;> first | exact .refl _ | exact hm | skip
  · rename_i k m
    agree memberW_agrees P m with o
    exact .refl _
  · rename_i m
    rcases wtf8 P m with _ | t
    · exact .refl _
    simp only
    agree okOrNone_agrees (parseTypeW_agrees t) with o
    exact .refl _

theorem dynamicPartsW_agrees (b nt : UInt16) (p : List UInt16) :
    Agrees (dynamicParts P b nt p) (dynamicPartsW P b nt p) := by
  unfold dynamicParts dynamicPartsW
  agree nameAndTypeW_agrees P nt with o
  exact .refl _

theorem invokeDynamicW_agrees (i : UInt16) (p : List UInt16) : Agrees (invokeDynamic P i p) (invokeDynamicW P i p) := by
  unfold invokeDynamic invokeDynamicW
  rcases P i with _ | e
  · exact .refl _
  cases e <;> simp only <;> first | exact .refl _ | exact dynamicPartsW_agrees P _ _ _

theorem dynamicW_agrees (i : UInt16) (p : List UInt16) : Agrees (dynamic P i p) (dynamicW P i p) := by
  unfold dynamic dynamicW
  rcases P i with _ | e
  · exact .refl _
  cases e <;> simp only <;> first | exact .refl _ | exact dynamicPartsW_agrees P _ _ _

theorem orDynamicW_agrees {α : Type} {f g : UInt16 → Res (Option α)} (h : ∀ i, Agrees (f i) (g i)) (i : UInt16)
    (p : List UInt16) : Agrees (orDynamic P f i p) (orDynamicW P g i p) := by
  unfold orDynamic orDynamicW
  agree dynamicW_agrees P i p with ⟨o, q⟩
  rcases o with _ | d
  · simp only
    agree h i with a
    exact .refl _
  · exact .refl _

end Pool

/-! ## Readers -/

/-- Two readers of which the outcomes agree everywhere. -/
def RAgrees {α : Type} (r s : Rd α) : Prop := ∀ env st bs, Agrees (r env st bs) (s env st bs)

theorem RAgrees.refl {α : Type} (r : Rd α) : RAgrees r r := fun _ _ _ => .refl _

theorem RAgrees.bind {α β : Type} {x y : Rd α} {f g : α → Rd β} (h : RAgrees x y) (hf : ∀ a, RAgrees (f a) (g a)) :
    RAgrees (Rd.bind x f) (Rd.bind y g) := by
  intro env st bs
  unfold Rd.bind
  agree h env st bs with ⟨a, st', rest⟩
  exact hf a env st' rest

theorem RAgrees.map {α β : Type} {x y : Rd α} {f : α → β} (h : RAgrees x y) : RAgrees (Rd.map f x) (Rd.map f y) :=
  h.bind fun _ => .refl _

theorem RAgrees.ap {α β : Type} {p q : Rd (α → β)} {x y : Rd α} (hp : RAgrees p q) (h : RAgrees x y) :
    RAgrees (Rd.ap p x) (Rd.ap q y) := hp.bind fun _ => h.bind fun _ => .refl _

theorem RAgrees.replicate {α : Type} {r s : Rd α} (h : RAgrees r s) : ∀ n, RAgrees (Rd.replicate n r) (Rd.replicate n s)
  | 0 => .refl _
  | n + 1 => h.bind fun _ => (h.replicate n).bind fun _ => .refl _

theorem RAgrees.vec {ℓ α : Type} {l : NumCodec ℓ} {r s : Rd α} (h : RAgrees r s) : RAgrees (rVec l r) (rVec l s) :=
  (RAgrees.refl _).bind fun _ => h.replicate _

theorem RAgrees.ite {α : Type} {c : Prop} [Decidable c] {x y x' y' : Rd α} (h1 : RAgrees x x') (h2 : RAgrees y y') :
    RAgrees (if c then x else y) (if c then x' else y') := by
  split
  · exact h1
  · exact h2

theorem RAgrees.ofRes {α : Type} {x y : Res α} (h : Agrees x y) : RAgrees (Rd.ofRes x) (Rd.ofRes y) := by
  intro env st bs
  unfold Rd.ofRes
  agree h with a
  exact .refl _

theorem RAgrees.lift {α : Type} {r s : Reader α} (h : ∀ bs, Agrees (r bs) (s bs)) : RAgrees (Rd.lift r) (Rd.lift s) := by
  intro env st bs
  unfold Rd.lift
  agree h bs with ⟨a, rest⟩
  exact .refl _

theorem RAgrees.lookupR {α : Type} {f g : Pool → UInt16 → Res (Option α)} (h : ∀ P i, Agrees (f P i) (g P i))
    (i : UInt16) : RAgrees (rLookupR f i) (rLookupR g i) := by
  intro env st bs
  unfold rLookupR
  agree h env.pool i with a
  exact .refl _

theorem RAgrees.lookupD {α : Type} {f g : Pool → UInt16 → List UInt16 → Res (Option α × List UInt16)}
    (h : ∀ P i p, Agrees (f P i p) (g P i p)) (i : UInt16) : RAgrees (rLookupD f i) (rLookupD g i) := by
  intro env st bs
  unfold rLookupD
  agree h env.pool i st.pending with a
  exact .refl _

theorem RAgrees.idxR {α : Type} {f g : Pool → UInt16 → Res (Option α)} (h : ∀ P i, Agrees (f P i) (g P i)) :
    RAgrees (rIdxR f) (rIdxR g) := (RAgrees.refl _).bind fun i => .lookupR h i

theorem RAgrees.framed {α : Type} {nm : Bytes} {r s : Rd α} (h : RAgrees r s) : RAgrees (rFramed nm r) (rFramed nm s) := by
  intro env st bs
  unfold rFramed
  agree Agrees.refl (u32.read bs) with ⟨len, bs1⟩
  agree Agrees.refl (readExact len.toNat bs1) with ⟨body, bs2⟩
  agree h env st body with ⟨a, st', rest⟩
  exact .refl _

/-- Two tables of readers. -/
inductive TAgrees {α : Type} : Option (Rd α) → Option (Rd α) → Prop where
  | none : TAgrees none none
  | some {r s : Rd α} (h : RAgrees r s) : TAgrees (some r) (some s)

theorem TAgrees.ite {α : Type} {c : Prop} [Decidable c] {x x' : Rd α} {y y' : Option (Rd α)} (h1 : RAgrees x x')
    (h2 : TAgrees y y') : TAgrees (if c then Option.some x else y) (if c then Option.some x' else y') := by
  split
  · exact .some h1
  · exact h2

theorem RAgrees.attr {α : Type} {f g : Bytes → Option (Rd α)} {raw : RawAttribute → α} (h : ∀ n, TAgrees (f n) (g n)) :
    RAgrees (rAttr f raw) (rAttr g raw) := (RAgrees.refl _).bind fun n => by
  rcases hf : f n with _ | r <;> rcases hg : g n with _ | s
  · exact .refl _
  · have := h n
    rw [hf, hg] at this
    cases this
  · have := h n
    rw [hf, hg] at this
    cases this
  · have := h n
    rw [hf, hg] at this
    cases this with
    | some h => exact .framed h

theorem rTypeW_agrees : RAgrees rType rTypeW := (RAgrees.refl _).bind fun s => .ofRes (parseTypeW_agrees s)

theorem rClassTextW_agrees : RAgrees rClassText rClassTextW := (RAgrees.refl _).bind fun s =>
  .ite (.refl _) (.map (.ofRes (parseTypeW_agrees s)))

theorem elemsWith_agrees {r s : Rd AnnValue} (h : RAgrees r s) : RAgrees (Elems.readWith r) (Elems.readWith s) :=
  .map (.vec ((RAgrees.refl _).bind fun _ => .map h))

theorem AnnValue.readFW_agrees : ∀ n, RAgrees (AnnValue.readF n) (AnnValue.readFW n)
  | 0 => .refl _
  | n + 1 => (RAgrees.refl _).bind fun tag =>
    .ite (.refl _) <| .ite (.refl _) <| .ite (.refl _) <| .ite (.refl _) <| .ite (.refl _) <| .ite (.refl _) <|
    .ite (.refl _) <| .ite (.refl _) <| .ite (.refl _) <| .ite (.ap (.map rTypeW_agrees) (.refl _)) <|
    .ite (.map rClassTextW_agrees) <| .ite (.ap (.map rTypeW_agrees) (elemsWith_agrees (AnnValue.readFW_agrees n))) <|
    .ite (.map (.vec (AnnValue.readFW_agrees n))) (.refl _)

theorem AnnValue.readW_agrees : RAgrees AnnValue.read AnnValue.readW := fun env st bs =>
  AnnValue.readFW_agrees (bs.length + 1) env st bs

theorem Annotation.readW_agrees : RAgrees Annotation.read Annotation.readW :=
  .ap (.map rTypeW_agrees) (elemsWith_agrees AnnValue.readW_agrees)

theorem TypeAnnotation.readW_agrees {T : Type} (r : Rd T) : RAgrees (TypeAnnotation.read r) (TypeAnnotation.readW r) :=
  .ap (.ap (.refl _) rTypeW_agrees) (elemsWith_agrees AnnValue.readW_agrees)

theorem rSig_agrees {α : Type} {f g : Str → Res α} (h : ∀ s, Agrees (f s) (g s)) : RAgrees (rSig f) (rSig g) :=
  (RAgrees.refl _).bind fun s => by
    rcases Wtf8.codepoints (Wtf8.toStringLossy s) with _ | cs
    · exact .refl _
    · exact .ofRes (h cs)

theorem rArgW_agrees : RAgrees rArg rArgW := (RAgrees.refl _).bind fun i =>
  .map (.lookupD (fun P i p => Pool.orDynamicW_agrees P (Pool.constantW_agrees P) i p) i)

theorem Bsm.readW_agrees : RAgrees Bsm.read Bsm.readW := .ap (.map (.idxR Pool.methodHandleW_agrees)) (.vec rArgW_agrees)

theorem rNatOptW_agrees : RAgrees rNatOpt rNatOptW := (RAgrees.refl _).bind fun i =>
  .ite (.refl _) (.map (.lookupR Pool.nameAndTypeW_agrees i))

theorem ClassAttr.tableW_agrees (n : Bytes) : TAgrees (ClassAttr.table n) (ClassAttr.tableW n) := by
  unfold ClassAttr.table ClassAttr.tableW
  exact
  .ite (.map (rSig_agrees parseClassW_agrees)) <| .ite (.refl _) <| .ite (.refl _) <| .ite (.refl _) <| .ite (.refl _) <|
  .ite (.ap (.refl _) rNatOptW_agrees) <| .ite (.refl _) <| .ite (.map (.vec Bsm.readW_agrees)) <| .ite (.refl _) <|
  .ite (.refl _) <| .ite (.refl _) <| .ite (.refl _) <| .ite (.refl _) <| .ite (.map (.vec Annotation.readW_agrees)) <|
  .ite (.map (.vec Annotation.readW_agrees)) <| .ite (.map (.vec (TypeAnnotation.readW_agrees _))) <|
  .ite (.map (.vec (TypeAnnotation.readW_agrees _))) .none

theorem FieldAttr.tableW_agrees (n : Bytes) : TAgrees (FieldAttr.table n) (FieldAttr.tableW n) := by
  unfold FieldAttr.table FieldAttr.tableW
  exact
  .ite (.refl _) <| .ite (.refl _) <| .ite (.map (rSig_agrees parseRefW_agrees)) <|
  .ite (.map (.idxR Pool.constantW_agrees)) <| .ite (.map (.vec Annotation.readW_agrees)) <|
  .ite (.map (.vec Annotation.readW_agrees)) <| .ite (.map (.vec (TypeAnnotation.readW_agrees _))) <|
  .ite (.map (.vec (TypeAnnotation.readW_agrees _))) .none

theorem Field.readW_agrees : RAgrees Field.read Field.readW :=
  .ap (.ap (.refl _) rTypeW_agrees) (.vec (.attr FieldAttr.tableW_agrees))

theorem CodeAttr.tableW_agrees (n : Bytes) : TAgrees (CodeAttr.table n) (CodeAttr.tableW n) := by
  unfold CodeAttr.table CodeAttr.tableW
  exact
  .ite (.refl _) <| .ite (.map (.vec (.ap (.ap (.refl _) rTypeW_agrees) (.refl _)))) <|
  .ite (.map (.vec (.ap (.ap (.refl _) (rSig_agrees parseRefW_agrees)) (.refl _)))) <|
  .ite (.map (.vec (TypeAnnotation.readW_agrees _))) <| .ite (.map (.vec (TypeAnnotation.readW_agrees _))) <|
  .ite (.refl _) .none

theorem rMemberW_agrees (i : UInt16) : RAgrees (rMember i) (rMemberW i) :=
  .lookupD (fun P i p => Pool.orDynamicW_agrees P (Pool.memberW_agrees P) i p) i

theorem rClassOrW_agrees (i : UInt16) : RAgrees (rClassOr i) (rClassOrW i) :=
  .lookupD (fun P i p => Pool.orDynamicW_agrees P (fun i => .refl (Except.ok (Pool.cls P i))) i p) i

theorem rPushW_agrees (i : UInt16) : RAgrees (rPush i) (rPushW i) := .map (.lookupR Pool.constantW_agrees i)

theorem arrayElemW_agrees (c : Bytes) : Agrees (arrayElem c) (arrayElemW c) := by
  unfold arrayElem arrayElemW
  agree okOrNone_agrees (parseTypeW_agrees c) with o
  exact .refl _

theorem toClassTypeW_agrees (c : Bytes) : Agrees (toClassType c) (toClassTypeW c) := by
  unfold toClassType toClassTypeW
  refine .ite ?_ (.refl _)
  agree parseTypeW_agrees c with o
  exact .refl _

theorem rNewArrayW_agrees (i : UInt16) (d : UInt8) : RAgrees (rNewArray i d) (rNewArrayW i d) :=
  (rClassOrW_agrees i).bind fun c => by
    rcases c with d | c
    · exact .refl _
    · exact .map (.ofRes (arrayElemW_agrees c))

theorem rClassTypeW_agrees (i : UInt16) : RAgrees (rClassType i) (rClassTypeW i) :=
  (rClassOrW_agrees i).bind fun c => by
    rcases c with d | c
    · exact .refl _
    · exact .map (.ofRes (toClassTypeW_agrees c))

theorem convertW_agrees (pos : Nat) (i : RInsn) : RAgrees (convert pos i) (convertW pos i) := by
  cases i <;> first
    | exact .refl _
    | exact rPushW_agrees _
    | exact .map (rMemberW_agrees _)
    | exact .map (.lookupD (fun P i p => Pool.invokeDynamicW_agrees P i p) _)
    | exact .map (rClassOrW_agrees _)
    | exact rNewArrayW_agrees _ _
    | exact .map (rClassTypeW_agrees _)

/-! ## Instructions -/

theorem wrapped_length (low high : Int32) (h : 0 ≤ high.toInt - low.toInt + 1 ∧ high.toInt - low.toInt + 1 < 2 ^ 31) :
    (high - low + 1).toInt = high.toInt - low.toInt + 1 := by
  rw [Int32.toInt_add, Int32.toInt_sub, Int32.toInt_one]
  rw [Int.bmod_add_bmod, Int.bmod_def]
  split <;> omega

theorem TblSwitch.readW_agrees (bs : Bytes) : Agrees (TblSwitch.read bs) (TblSwitch.readW bs) := by
  unfold TblSwitch.read TblSwitch.readW Reader.bind
  agree Agrees.refl (i32.read bs) with ⟨low, bs1⟩
  agree Agrees.refl (i32.read bs1) with ⟨high, bs2⟩
  by_cases h : 0 ≤ high.toInt - low.toInt + 1 ∧ high.toInt - low.toInt + 1 < 2 ^ 31
  · rw [if_pos h, wrapped_length low high h, if_pos h.1]
    exact .refl _
  · rw [if_neg h]
    exact fun hh => absurd rfl hh

theorem RInsn.readW_agrees (bs : Bytes) : Agrees (RInsn.read bs) (RInsn.readW bs) := by
  unfold RInsn.readW
  rcases bs with _ | ⟨o, rest⟩
  · exact .refl _
  simp only
  by_cases ho : o = opc.TABLESWITCH
  · subst ho
    rw [if_pos rfl]
    have h1 : RInsn.read (opc.TABLESWITCH :: rest) = Reader.of2 .TableSwitch i32.read TblSwitch.read rest := rfl
    rw [h1]
    unfold Reader.of2 Reader.of1
    simp only [Reader.bind]
    agree Agrees.refl (i32.read rest) with ⟨d, bs1⟩
    agree TblSwitch.readW_agrees bs1 with ⟨t, bs2⟩
    exact .refl _
  · rw [if_neg ho]
    exact .refl _

theorem rInsnW_agrees (pos : Nat) : RAgrees (rInsn pos) (rInsnW pos) := by
  intro env st bs
  unfold rInsn rInsnW
  rcases bs with _ | ⟨o, rest⟩
  · exact .refl _
  · exact .ite ((RAgrees.lift RInsn.readW_agrees).bind (convertW_agrees pos) _ _ _)
      ((RAgrees.lift RInsn.readW_agrees).bind (convertW_agrees pos) _ _ _)

theorem readLoopW_agrees (len : Nat) (env : REnv) : ∀ (n : Nat) (st : RSt) (bs : Bytes), bs.length ≤ n →
    Agrees (readLoop len env st bs) (readLoopW len env st bs) := by
  intro n
  induction n with
  | zero =>
    intro st bs h
    rw [readLoop, readLoopW, if_pos (by omega), if_pos (by omega)]
    exact .refl _
  | succ n ih =>
    intro st bs h
    rw [readLoop, readLoopW]
    refine .ite (.refl _) ?_
    agree rInsnW_agrees (len - bs.length) env st bs with ⟨i, st1, rest⟩
    by_cases hl : rest.length < bs.length
    · rw [if_pos hl, if_pos hl]
      agree ih st1 rest (by omega) with ⟨is, st2⟩
      exact .refl _
    · rw [if_neg hl, if_neg hl]
      exact .refl _

theorem readInsnsW_agrees (code : Bytes) : RAgrees (readInsns code) (readInsnsW code) := by
  intro env st bs
  unfold readInsns readInsnsW
  agree readLoopW_agrees code.length env code.length st code (Nat.le_refl _) with ⟨is, st1⟩
  exact .refl _

/-! ## Bodies -/

theorem rangeLabelsW_agrees (s l : UInt16) : RAgrees (rangeLabels s l) (rangeLabelsW s l) :=
  (RAgrees.refl _).bind fun a => by
    split
    · exact .refl _
    · exact fun _ _ _ hh => absurd rfl hh

theorem addVarsW_agrees : ∀ (vs : List VarEntry) (vars : List LocalVariable), RAgrees (addVars vars vs) (addVarsW vars vs)
  | [], _ => .refl _
  | l :: ls, _ => (rangeLabelsW_agrees l.start l.len).bind fun _ => addVarsW_agrees ls _

theorem addVarTypesW_agrees : ∀ (vs : List VarTypeEntry) (vars : List LocalVariable),
    RAgrees (addVarTypes vars vs) (addVarTypesW vars vs)
  | [], _ => .refl _
  | l :: ls, _ => (rangeLabelsW_agrees l.start l.len).bind fun _ => addVarTypesW_agrees ls _

theorem AttrAcc.stepW_agrees (idx : Nat → Option Nat) (acc : AttrAcc) : ∀ a, RAgrees (acc.step idx a) (acc.stepW idx a)
  | .lines _ => .refl _
  | .vars vs => .map (addVarsW_agrees vs _)
  | .varTypes vs => .map (addVarTypesW_agrees vs _)
  | .frames _ => .refl _
  | .invisibleType _ => .refl _
  | .visibleType _ => .refl _
  | .raw _ => .refl _

theorem readCodeAttrsW_agrees (idx : Nat → Option Nat) : ∀ (n : Nat) (acc : AttrAcc),
    RAgrees (readCodeAttrs idx n acc) (readCodeAttrsW idx n acc)
  | 0, _ => .refl _
  | n + 1, acc => (RAgrees.attr CodeAttr.tableW_agrees).bind fun a => (acc.stepW_agrees idx a).bind fun acc =>
    readCodeAttrsW_agrees idx n acc

theorem Code.readInW_agrees (ord : Nat → List LocalVariable → List LocalVariable) :
    RAgrees (Code.readIn ord) (Code.readInW ord) :=
  (RAgrees.refl _).bind fun _ => (RAgrees.refl _).bind fun _ => (RAgrees.refl _).bind fun _ => (RAgrees.refl _).bind fun code =>
  (readInsnsW_agrees code).bind fun pis => (RAgrees.refl _).bind fun cs => (RAgrees.refl _).bind fun n =>
  RAgrees.bind (fun env st bs => readCodeAttrsW_agrees _ _ _ { env with catches := some cs } st bs) fun _ => .refl _

theorem Code.readW_agrees (ord : Nat → List LocalVariable → List LocalVariable) : RAgrees (Code.read ord) (Code.readW ord) := by
  intro env st bs
  unfold Code.read Code.readW
  agree Code.readInW_agrees ord { env with catches := some [] } ⟨st.pending, some []⟩ bs with ⟨c, st1, rest⟩
  exact .refl _

theorem MethodAttr.tableW_agrees (ord : Nat → List LocalVariable → List LocalVariable) (n : Bytes) :
    TAgrees (MethodAttr.table ord n) (MethodAttr.tableW ord n) := by
  unfold MethodAttr.table MethodAttr.tableW
  exact
  .ite (.map (Code.readW_agrees ord)) <| .ite (.refl _) <| .ite (.refl _) <| .ite (.map (rSig_agrees parseMethodW_agrees)) <|
  .ite (.map (.vec Annotation.readW_agrees)) <| .ite (.map (.vec Annotation.readW_agrees)) <|
  .ite (.map (.vec (TypeAnnotation.readW_agrees _))) <| .ite (.map (.vec (TypeAnnotation.readW_agrees _))) <|
  .ite (.map (.vec (.vec Annotation.readW_agrees))) <| .ite (.map (.vec (.vec Annotation.readW_agrees))) <|
  .ite (.refl _) <| .ite (.map AnnValue.readW_agrees) <| .ite (.refl _) .none

theorem Method.readW_agrees (ord : Order) : RAgrees (Method.read ord) (Method.readW ord) :=
  .ap (.ap (.refl _) rTypeW_agrees) (.vec fun env st bs => RAgrees.attr (MethodAttr.tableW_agrees (ord bs.length)) env st bs)

theorem Class.readBodyW_agrees (ord : Order) (v : Version) : RAgrees (Class.readBody ord v) (Class.readBodyW ord v) :=
  .ap (.ap (.ap (.refl _) (.vec Field.readW_agrees)) (.vec (Method.readW_agrees ord))) (.vec (.attr ClassAttr.tableW_agrees))

theorem MapCp.readW_agrees (bs : Bytes) : Agrees (MapCp.read bs) (MapCp.readW bs) := by
  unfold MapCp.read MapCp.readW Reader.bind
  agree Agrees.refl (u16.read bs) with ⟨n, rest⟩
  exact readLoopW_eq _ (Nat.lt_succ_self _)

theorem Class.readW_agrees (ord : Order) (bs : Bytes) : Agrees (Class.read ord bs) (Class.readW ord bs) := by
  unfold Class.read Class.readW
  agree Agrees.refl (u32.read bs) with ⟨m, bs1⟩
  refine .ite ?_ (.refl _)
  agree Agrees.refl (Version.read bs1) with ⟨v, bs2⟩
  agree MapCp.readW_agrees bs2 with ⟨cp, bs3⟩
  agree Class.readBodyW_agrees ord v ⟨cp.get, none⟩ ⟨[], none⟩ bs3 with ⟨c, st, bs4⟩
  exact .refl _

end Verif
