import Verif.Lemmas.Sim
import Verif.Lemmas.Legible
import Verif.Lemmas.Circular

/-! # Writing a class whose cells are shared -/

namespace Verif
open Spec Sig

/-! ## The body of the class -/

section
open Sim
variable {T : List Bsm} {F : Bsm → Bsm}

theorem pair_look {d : Dynamic} (h : Shared d) : Pair F (d.look T) (resolveD (T.map F) d) := by
  obtain ⟨c, n, t⟩ := d
  obtain ⟨k, hk⟩ := h
  obtain rfl : c = .pending k := hk
  unfold resolveD Dynamic.look Cell.look
  simp only [List.getElem?_map]
  rcases T[k.toNat]? with _ | b
  · exact ⟨rfl, rfl, rfl⟩
  · exact ⟨rfl, rfl, rfl⟩

theorem opair_look {α : Type} {x : OrDynamic α} (h : ∀ d ∈ orDynamics x, Shared d) :
    OPair F (x.look T) (resolveO (T.map F) x) := by
  cases x with
  | dynamic d => exact .dynamic (pair_look (h d (by simp [orDynamics])))
  | static a => exact .static a

theorem ipair_look {i : Insn} (h : ∀ d ∈ insnDynamics i, Shared d) : IPair F (i.look T) (resolveI (T.map F) i) := by
  cases i with
  | push c => exact .push (opair_look h)
  | checkCast t => exact .checkCast (opair_look h)
  | instanceOf t => exact .instanceOf (opair_look h)
  | newArray t n => exact .newArray n
  | new t => exact .new (opair_look h)
  | field o t m => exact .field o t (opair_look h)
  | invokeExact t m => exact .invokeExact t (opair_look h)
  | invokeSpecial m => exact .invokeSpecial (opair_look h)
  | invokeInterface m n => exact .invokeInterface n (opair_look h)
  | invokeDynamic d => exact .invokeDynamic (pair_look (h d (by simp [insnDynamics])))
  | _ => exact .same _ rfl

theorem sim_attr_look {a : MethodAttr} (h : ∀ d ∈ attrDynamics a, Shared d) :
    Sim F (MethodAttr.write (MethodAttrOf.look T a)) (MethodAttr.write (fillMethodAttr (T.map F) a)) := by
  cases a with
  | code x => exact attr (sim_code fun i hi => ipair_look fun d hd => h d (List.mem_flatMap.mpr ⟨i, hi, hd⟩))
  | _ => exact sim_methodAttr nofun

theorem sim_method_look {m : Method} (h : ∀ a ∈ m.attrs, ∀ d ∈ attrDynamics a, Shared d) :
    Sim F (Method.write (Method.look T m))
      (Method.write { m with attrs := m.attrs.map (fillMethodAttr (T.map F)) }) :=
  cons flags (cons wutf8 (cons wtype (cons (vec_maps fun a ha => sim_attr_look (h a ha)) nil)))

end

theorem ownBsms_fill (T : List Bsm) (n : Nat) (as : List ClassAttr) :
    ownBsms (as.map (fillClassAttr T n)) = (ownBsms as).map (fillBsm T n) := by
  induction as with
  | nil => rfl
  | cons a as ih =>
    cases a with
    | bootstrapMethods ms =>
      show ms.map (fillBsm T n) ++ ownBsms (as.map (fillClassAttr T n)) = _
      rw [ih, ← List.map_append]
      rfl
    | _ => exact ih

theorem sim_other {F : Bsm → Bsm} {T : List Bsm} {n : Nat} {a : ClassAttr} :
    Sim F a.writeOther (fillClassAttr T n a).writeOther := by
  cases a with
  | bootstrapMethods ms => exact Sim.nil
  | _ => exact sim_classAttr

theorem sim_body {x : Class} (h : ∀ d ∈ classDynamics x, Shared d) (n : Nat) :
    Sim (fillBsm (bsmTable x.attrs) n) (x.look (bsmTable x.attrs)).writeBody (filled n x).writeBody := by
  open Sim in
  exact cons flags (cons (idx cls) (cons (opt fun _ => cls) (cons (cut fun _ _ => idx cls) (cons (cut fun _ _ => sim_field)
    (cons (cut_maps fun m hm => sim_method_look fun a ha d hd =>
      h d (List.mem_flatMap.mpr ⟨m, hm, List.mem_flatMap.mpr ⟨a, ha, hd⟩⟩))
    (cons (cut_map fun a _ => sim_other) nil))))))

/-! ## The rounds of the loop -/

/-- The bootstrap methods that are registered when entries are written. -/
def nextBsms (T : List Bsm) (bs : List Bsm) : List Bsm := bs.flatMap fun b => argBsms (b.look T)

theorem round_look {T : List Bsm} {bs : List Bsm} {cp cp' : VecCp} {out : Bytes}
    (h : wAll (fun b => (b.look T).write) bs { cp with bsm := [] } = .ok (out, cp')) : cp'.bsm = nextBsms T bs := by
  have he : ∀ b ∈ bs, Eff (fun _ => True) (b.look T).write (argBsms (b.look T)) :=
    fun b _ => eff_bsm (allBsm_true (b.look T))
  have f := (Eff.all he _ _ _ h).1
  rw [List.nil_append] at f
  exact f

/-- Every cell in the arguments of a bootstrap method is shared. -/
def ArgsShared (b : Bsm) : Prop := ∀ a ∈ b.arguments, SharedArg a

theorem next_mem {T bs : List Bsm} (hs : ∀ b ∈ bs, ArgsShared b) {b' : Bsm} :
    b' ∈ nextBsms T bs ↔ ∃ b ∈ bs, ∃ k n t, Arg.dynamic (.pending k) n t ∈ b.arguments ∧ T[k.toNat]? = some b' := by
  unfold nextBsms argBsms Bsm.look
  simp only [List.mem_flatMap, List.mem_map]
  constructor
  · rintro ⟨b, hb, a', ⟨a, ha, rfl⟩, d, hd, hm⟩
    refine ⟨b, hb, ?_⟩
    cases a with
    | static c => cases hd
    | dynamic c n t =>
      obtain ⟨k, rfl⟩ := hs b hb _ ha _ _ _ rfl
      refine ⟨k, n, t, ha, ?_⟩
      rw [Arg.look, Cell.look] at hd
      rcases hk : T[k.toNat]? with _ | b2 <;> rw [hk] at hd
      · cases List.mem_singleton.mp hd
        cases hm
      · cases List.mem_singleton.mp hd
        cases List.mem_singleton.mp hm
        rfl
  · rintro ⟨b, hb, k, n, t, ha, hk⟩
    refine ⟨b, hb, _, ⟨_, ha, rfl⟩, ⟨.filled b'.handle b'.arguments, n, t⟩, ?_, List.mem_singleton.mpr rfl⟩
    rw [Arg.look, Cell.look, hk]
    exact List.mem_singleton.mpr rfl

theorem next_table {T bs : List Bsm} (hs : ∀ b ∈ bs, ArgsShared b) {b' : Bsm} (h : b' ∈ nextBsms T bs) : b' ∈ T := by
  obtain ⟨_, _, k, _, _, _, h⟩ := (next_mem hs).mp h
  exact List.mem_of_getElem? h

section
variable {T : List Bsm}

theorem opair_arg (hT : ¬ Circular T) {a : Arg} (h : SharedArg a) :
    Sim.OPair (fillBsm T T.length) (a.look T).toOrDynamic (fillArg T T.length a).toOrDynamic := by
  cases a with
  | static c =>
    rw [show fillArg T T.length (.static c) = .static c by cases T.length <;> rfl]
    exact .static c
  | dynamic c n t =>
    obtain ⟨k, rfl⟩ := h _ _ _ rfl
    rw [Arg.look, Cell.look]
    rcases hk : T[k.toNat]? with _ | b
    · have : fillArg T T.length (.dynamic (.pending k) n t) = .dynamic (.pending k) n t := by
        cases T.length with
        | zero => rfl
        | succ m => rw [fillArg, hk]
      rw [this]
      exact .dynamic ⟨rfl, rfl, rfl⟩
    · obtain ⟨m, hm⟩ : ∃ m, T.length = m + 1 := by
        have := (List.getElem?_eq_some_iff.mp hk).1
        exact ⟨T.length - 1, by omega⟩
      have e : fillArg T T.length (.dynamic (.pending k) n t) =
          .dynamic (.filled b.handle (b.arguments.map (fillArg T T.length))) n t := by
        rw [hm, fillArg, hk]
        simp only
        rw [List.map_congr_left fun a ha => fill_stable hT hk ha hm]
      rw [e]
      exact .dynamic ⟨rfl, rfl, rfl⟩

theorem sim_bsm_look (hT : ¬ Circular T) {b : Bsm} (h : ArgsShared b) :
    Sim (fillBsm T T.length) (b.look T).write (fillBsm T T.length b).write := by
  open Sim in
  unfold Bsm.write Bsm.look fillBsm
  simp only [List.length_map]
  exact cons (idx handle) (cons num (cons (all_maps fun a ha => idx (orDynamic (fun _ => const) (opair_arg hT (h a ha)))) nil))

/-- The result of the loop with other bootstrap methods. -/
def bmapB (F : Bsm → Bsm) : Res (Nat × Bytes × VecCp) → Res (Nat × Bytes × VecCp)
  | .ok (n, bs, cp) => .ok (n, bs, cp.bmap F)
  | .error e => .error e

theorem sim_batches (hT : ¬ Circular T) (hs : ∀ b ∈ T, ArgsShared b) {i : Nat} {cp : VecCp}
    (hb : ∀ b ∈ cp.bsm, ArgsShared b) : ∃ n, ∀ fuel, n ≤ fuel →
      writeBatches i (cp.bmap (fillBsm T T.length)) = bmapB (fillBsm T T.length) (writeBatchesIn T fuel i cp) := by
  generalize hF : fillBsm T T.length = F
  induction hm : bsmNodes (cp.bmap F).bsm using Nat.strongRecOn generalizing i cp with
  | ind m ih =>
    have hl : (cp.bmap F).bsm.length = cp.bsm.length := List.length_map _
    by_cases h0 : cp.bsm.length = 0
    · refine ⟨1, fun fuel hf => ?_⟩
      obtain ⟨f, rfl⟩ : ∃ f, fuel = f + 1 := ⟨fuel - 1, by omega⟩
      rw [writeBatches, writeBatchesIn, hl, if_pos h0, if_pos h0]
      rfl
    · by_cases h1 : i + cp.bsm.length % 65536 < 65536
      · have hsim : wAll Bsm.write (cp.bmap F).bsm { cp.bmap F with bsm := [] } =
            rmap F (wAll (fun b => (b.look T).write) cp.bsm { cp with bsm := [] }) := by
          have := Sim.all_map (F := F) (w := fun b => (Bsm.look T b).write) (w' := Bsm.write) (g := F) (xs := cp.bsm)
            (fun b h => hF ▸ sim_bsm_look hT (hb b h)) { cp with bsm := [] }
          exact this
        rcases hw : wAll (fun b => (b.look T).write) cp.bsm { cp with bsm := [] } with e | ⟨bs, cp'⟩
        · refine ⟨1, fun fuel hf => ?_⟩
          obtain ⟨f, rfl⟩ : ∃ f, fuel = f + 1 := ⟨fuel - 1, by omega⟩
          rw [writeBatches, writeBatchesIn, hl, if_neg h0, if_neg h0, if_pos h1, if_pos h1, hsim, hw]
          rfl
        · rw [hw] at hsim
          have hlt : bsmNodes (cp'.bmap F).bsm < bsmNodes (cp.bmap F).bsm :=
            (round_bsm hsim).2 (by intro e; rw [← List.length_eq_zero_iff] at e; omega)
          obtain ⟨n, hn⟩ := ih _ (hm ▸ hlt) (i := i + cp.bsm.length % 65536) (cp := cp')
            (fun b h => hs b (next_table hb (round_look hw ▸ h))) rfl
          refine ⟨n + 1, fun fuel hf => ?_⟩
          obtain ⟨f, rfl⟩ : ∃ f, fuel = f + 1 := ⟨fuel - 1, by omega⟩
          rw [writeBatches, writeBatchesIn, hl, if_neg h0, if_neg h0, if_pos h1, if_pos h1, hsim, hw]
          simp only [rmap]
          rw [dif_pos hlt, hn f (by omega)]
          rcases writeBatchesIn T f (i + cp.bsm.length % 65536) cp' with e | ⟨n', bs', cp''⟩
          · rfl
          · rfl
      · refine ⟨1, fun fuel hf => ?_⟩
        obtain ⟨f, rfl⟩ : ∃ f, fuel = f + 1 := ⟨fuel - 1, by omega⟩
        rw [writeBatches, writeBatchesIn, hl, if_neg h0, if_neg h0, if_neg h1, if_neg h1]
        rfl

end

end Verif
