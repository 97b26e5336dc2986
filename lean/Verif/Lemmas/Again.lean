import Verif.Lemmas.Exec
import Verif.Lemmas.NeatClass
import Verif.Lemmas.ExecClass

/-! # Writing the same body with other names for labels -/

namespace Verif
open Spec Sig

/-! ## Instructions in normal form are written in the same way -/

theorem insertMember_norm (m : MemberRef) : insertMember m.norm = insertMember m := by
  unfold insertMember MemberRef.norm
  cases JType.isMethod m.descriptor <;> cases m.itfs <;> rfl

theorem insertConstant_norm (c : Constant) : insertConstant c.norm = insertConstant c := by
  cases c with
  | member m => exact insertMember_norm m
  | methodHandle h =>
    show insertMethodHandle _ = insertMethodHandle h
    unfold insertMethodHandle
    simp only [insertMember_norm]
  | _ => rfl

theorem encode_none {i : Insn} (h : normal i = none) : i.encode = pure [] := by
  cases i
  case conversion a b => cases a <;> cases b <;> cases h <;> rfl
  case convertInt a => cases a <;> cases h <;> rfl
  case push c => cases c <;> cases h
  case field o t c => cases c <;> cases h
  case invokeExact t c => cases c <;> cases h
  case invokeSpecial c => cases c <;> cases h
  case invokeInterface c n => cases c <;> cases h
  all_goals first | (cases h; done) | rfl

theorem encode_some {i j : Insn} (h : normal i = some j) : j.encode = i.encode := by
  cases i
  case conversion a b => cases a <;> cases b <;> cases h <;> rfl
  case convertInt a => cases a <;> cases h <;> rfl
  case push c =>
    cases c with
    | dynamic => cases h; rfl
    | static c =>
      cases h
      cases c with
      | member m =>
        show writeLdc _ = writeLdc _
        unfold writeLdc
        simp [insertOrDynamic, insertConstant, insertMember_norm, Constant.norm]
        rfl
      | methodHandle m =>
        show writeLdc _ = writeLdc _
        unfold writeLdc
        simp [insertOrDynamic, insertConstant, insertMethodHandle, insertMember_norm, Constant.norm]
        rfl
      | _ => rfl
  case field o t c => cases c <;> cases h <;> simp [Insn.encode, wOrDyn, insertOrDynamic, insertMember_norm]
  case invokeExact t c =>
    cases t <;> cases c <;> cases h <;> simp [Insn.encode, wOrDyn, insertOrDynamic, insertMember_norm]
  case invokeSpecial c => cases c <;> cases h <;> simp [Insn.encode, wOrDyn, insertOrDynamic, insertMember_norm]
  case invokeInterface c n => cases c <;> cases h <;> simp [Insn.encode, wOrDyn, insertOrDynamic, insertMember_norm]
  all_goals first | (cases h; done) | (cases h; rfl)

theorem encode_ren (f : Label → Label) (i : Insn) : (renI f i).encode = i.encode := by
  cases i <;> rfl

/-! ## The instructions and the labels apart -/

/-- What is written for each instruction at once. -/
def pieces : List Insn → Ins (List Bytes)
  | [] => pure []
  | i :: is => do
    let b ← i.encode
    let bs ← pieces is
    pure (b :: bs)

def asBranch : Insn → Option Branch
  | .lookupSwitch d t => some (.lookup d t)
  | .tableSwitch d low ls => some (.table d low ls)
  | .jump c l => some (.jump c l)
  | .jsr l => some (.jsr l)
  | _ => none

def addPiece (b : CodeBuf) (i : Insn) (p : Bytes) : CodeBuf :=
  match asBranch i with
  | some j => b.branch j
  | none => { b with cur := b.cur ++ p }

/-- What `writeInsns` makes of the pieces. -/
def build (b : CodeBuf) : List Insn → List Bytes → CodeBuf
  | [], _ => b
  | i :: is, ps =>
    match i with
    | .label l => build { b with labels := (l, (b.buf.length, b.cur.length)) :: b.labels } is ps
    | i => if (normal i).isSome then
        match ps with
        | [] => b
        | p :: ps => build (addPiece b i p) is ps
      else build b is ps

theorem pieces_cons (i : Insn) (is : List Insn) (cp : VecCp) : pieces (i :: is) cp =
    match i.encode cp with
    | .error e => .error e
    | .ok (b, cp) => match pieces is cp with
      | .error e => .error e
      | .ok (bs, cp) => .ok (b :: bs, cp) := by
  rw [pieces]
  show Ins.bind _ _ cp = _
  unfold Ins.bind
  split
  · rename_i h; rw [h]
    show Ins.bind _ _ _ = _
    unfold Ins.bind
    simp only
    split
    · rename_i h; rw [h]; rfl
    · rename_i h; rw [h]
  · rename_i h; rw [h]

theorem writeInsns_build : ∀ (is : List Insn) (b : CodeBuf) (cp : VecCp), writeInsns b is cp =
    match pieces (is.filterMap normal) cp with
    | .error e => .error e
    | .ok (ps, cp) => .ok (build b is ps, cp)
  | [], b, cp => rfl
  | i :: is, b, cp => by
    have hb : ∀ (b : CodeBuf) (cp : VecCp), writeInsns b (i :: is) cp = match writeInsn b i cp with
        | .error e => .error e
        | .ok (b, cp) => writeInsns b is cp := by
      intro b cp
      rw [writeInsns]
      show Ins.bind _ _ cp = _
      unfold Ins.bind
      split
      · rename_i h; rw [h]
      · rename_i h; rw [h]
    have hone : (∀ l, i ≠ .label l) → writeInsn b i cp = match i.encode cp with
        | .error e => .error e
        | .ok (p, cp) => .ok (if (normal i).isSome then addPiece b i p else b, cp) := by
      intro hl
      have hd : writeInsn b i cp = match i.encode cp with
        | .error e => .error e
        | .ok (p, cp) => .ok ((match i with | .lineNumber _ => b | _ => addPiece b i p), cp) := by
        cases i
        case label l => exact absurd rfl (hl l)
        case lineNumber => rfl
        case lookupSwitch => rfl
        case tableSwitch => rfl
        case jump => rfl
        case jsr => rfl
        all_goals
          rw [writeInsn]
          · show Ins.bind _ _ cp = _
            unfold Ins.bind
            split
            · rename_i h; rw [h]; rfl
            · rename_i h; rw [h]
          all_goals nofun
      rw [hd]
      cases hn : normal i with
      | none =>
        rw [encode_none hn]
        show Except.ok _ = Except.ok _
        cases i
        case lineNumber => rfl
        case label l => exact absurd rfl (hl l)
        all_goals first
          | (cases hn; done)
          | (simp only [Option.isSome_none, Bool.false_eq_true, if_false]
             unfold addPiece asBranch
             simp)
      | some j =>
        simp only [Option.isSome_some, if_true]
        cases i
        case lineNumber => cases hn
        all_goals rfl
    rw [hb]
    by_cases hl : ∃ l, i = .label l
    · obtain ⟨l, rfl⟩ := hl
      show writeInsns _ is cp = _
      rw [writeInsns_build is]
      rfl
    · replace hl : ∀ l, i ≠ .label l := fun l h => hl ⟨l, h⟩
      have hbuild : ∀ ps, build b (i :: is) ps = if (normal i).isSome then
          match ps with
          | [] => b
          | p :: ps => build (addPiece b i p) is ps
        else build b is ps := by
        intro ps
        cases i
        case label l => exact absurd rfl (hl l)
        all_goals rfl
      rw [hone hl]
      simp only [hbuild]
      cases hn : normal i with
      | none =>
        rw [encode_none hn, List.filterMap_cons_none hn]
        show writeInsns _ is cp = _
        rw [writeInsns_build is]
        rfl
      | some j =>
        rw [List.filterMap_cons_some hn, pieces_cons, encode_some hn]
        cases he : i.encode cp with
        | error e => rfl
        | ok r =>
          obtain ⟨p, cp'⟩ := r
          simp only [Option.isSome_some, if_true]
          rw [writeInsns_build is]
          split <;> rfl

theorem pieces_length : ∀ {is : List Insn} {cp cp' : VecCp} {ps : List Bytes}, pieces is cp = .ok (ps, cp') →
    ps.length = is.length
  | [], _, _, _, h => by cases h; rfl
  | i :: is, cp, cp', ps, h => by
    rw [pieces_cons] at h
    split at h
    · cases h
    split at h
    · cases h
    rename_i h1
    cases h
    rw [List.length_cons, List.length_cons, pieces_length h1]

def sortBr : Branch → Branch
  | .lookup d t => .lookup d (t.mergeSort fun a b => a.1.toInt ≤ b.1.toInt)
  | j => j

def renBr (f : Label → Label) : Branch → Branch
  | .lookup d t => .lookup (f d) (t.map fun e => (e.1, f e.2))
  | .table d low ls => .table (f d) low (ls.map f)
  | .jump c l => .jump c (f l)
  | .jsr l => .jsr (f l)

theorem asBranch_normal {i j : Insn} (h : normal i = some j) : asBranch j = (asBranch i).map sortBr := by
  cases i
  case conversion a b => cases a <;> cases b <;> cases h <;> rfl
  case convertInt a => cases a <;> cases h <;> rfl
  case push c => cases c <;> cases h <;> rfl
  case field o t c => cases c <;> cases h <;> rfl
  case invokeExact t c => cases c <;> cases h <;> rfl
  case invokeSpecial c => cases c <;> cases h <;> rfl
  case invokeInterface c n => cases c <;> cases h <;> rfl
  all_goals first | (cases h; done) | (cases h; rfl)

theorem asBranch_ren (f : Label → Label) (i : Insn) : asBranch (renI f i) = (asBranch i).map (renBr f) := by
  cases i <;> rfl

theorem build_label (b : CodeBuf) (l : Label) (is : List Insn) (ps : List Bytes) : build b (.label l :: is) ps =
    build { b with labels := (l, (b.buf.length, b.cur.length)) :: b.labels } is ps := rfl

theorem build_other {b : CodeBuf} {i : Insn} {is : List Insn} {ps : List Bytes} (hl : ∀ l, i ≠ .label l) :
    build b (i :: is) ps = if (normal i).isSome then
      match ps with
      | [] => b
      | p :: ps => build (addPiece b i p) is ps
    else build b is ps := by
  cases i
  case label l => exact absurd rfl (hl l)
  all_goals rfl

theorem build_none {b : CodeBuf} {i : Insn} {is : List Insn} {ps : List Bytes} (hl : ∀ l, i ≠ .label l)
    (h : normal i = none) : build b (i :: is) ps = build b is ps := by
  rw [build_other hl, h]
  rfl

theorem build_some {b : CodeBuf} {i j : Insn} {is : List Insn} {p : Bytes} {ps : List Bytes}
    (h : normal i = some j) : build b (i :: is) (p :: ps) = build (addPiece b i p) is ps := by
  have : build b (i :: is) (p :: ps) = if (normal i).isSome then build (addPiece b i p) is ps
    else build b is (p :: ps) := by
    cases i
    case label l => cases h
    all_goals rfl
  rw [this, h]
  rfl

/-- The same but for labels and the order of the entries of switches. -/
structure Core (f : Branch → Branch) (b b' : CodeBuf) : Prop where
  buf : b'.buf = b.buf
  cur : b'.cur = b.cur
  jumps : b'.jumps = b.jumps.map f

theorem Core.piece {f : Branch → Branch} {b b' : CodeBuf} (h : Core f b b') {i j : Insn}
    (hi : asBranch j = (asBranch i).map f) (p : Bytes) : Core f (addPiece b i p) (addPiece b' j p) := by
  unfold addPiece
  rw [hi]
  cases asBranch i with
  | none => exact ⟨h.buf, by simp only [Option.map_none, h.cur], h.jumps⟩
  | some k => exact ⟨by simp only [Option.map_some, CodeBuf.branch, h.buf, h.cur], rfl,
      by simp only [Option.map_some, CodeBuf.branch, h.jumps, List.map_append, List.map_cons, List.map_nil]⟩

theorem build_core : ∀ (is : List Insn) {b b' : CodeBuf} {ps : List Bytes}, ps.length = (is.filterMap normal).length →
    Core sortBr b b' → Core sortBr (build b is ps) (build b' (is.filterMap normal) ps)
  | [], _, _, _, _, h => h
  | i :: is, b, b', ps, hp, h => by
    by_cases hl : ∃ l, i = .label l
    · obtain ⟨l, rfl⟩ := hl
      rw [build_label]
      exact build_core is hp ⟨h.buf, h.cur, h.jumps⟩
    · cases hn : normal i with
      | none =>
        rw [List.filterMap_cons_none hn] at hp ⊢
        rw [build_none (fun l e => hl ⟨l, e⟩) hn]
        exact build_core is hp h
      | some j =>
        rw [List.filterMap_cons_some hn] at hp ⊢
        match ps, hp with
        | p :: ps, hp =>
          rw [build_some hn, build_some (normal_idem hn)]
          exact build_core is (by simpa using hp) (h.piece (asBranch_normal hn) p)

theorem build_ren (f : Label → Label) : ∀ (is : List Insn) {b b' : CodeBuf} {ps : List Bytes}, ps.length = is.length →
    (∀ i ∈ is, normal i = some i) → Core (renBr f) b b' → Core (renBr f) (build b is ps) (build b' (is.map (renI f)) ps)
  | [], _, _, _, _, _, h => h
  | i :: is, b, b', p :: ps, hp, hi, h => by
    have hn := hi i (.head _)
    have hn' : normal (renI f i) = some (renI f i) := by rw [normal_ren, hn]; rfl
    rw [List.map_cons, build_some hn, build_some hn']
    exact build_ren f is (by simpa using hp) (fun j hj => hi j (.tail _ hj)) (h.piece (asBranch_ren f i) p)

/-- The place after so many instructions. -/
def spot (p : Nat × Nat) : List Insn → List Bytes → Nat → Nat × Nat
  | i :: is, b :: bs, k + 1 => spot (if (asBranch i).isSome then (p.1 + 1, 0) else (p.1, p.2 + b.length)) is bs k
  | _, _, _ => p

theorem spot_zero (p : Nat × Nat) (is : List Insn) (bs : List Bytes) : spot p is bs 0 = p := by
  unfold spot
  split <;> first | rfl | (rename_i h; cases h)

theorem spot_ren (f : Label → Label) : ∀ (is : List Insn) (p : Nat × Nat) (bs : List Bytes) (k : Nat),
    spot p (is.map (renI f)) bs k = spot p is bs k
  | [], _, _, _ => rfl
  | i :: is, p, [], k => by cases k <;> rfl
  | i :: is, p, b :: bs, 0 => by rw [spot_zero, spot_zero]
  | i :: is, p, b :: bs, k + 1 => by
    rw [List.map_cons, spot, spot, spot_ren f is, asBranch_ren, Option.isSome_map]

theorem place_absent {l : Label} : ∀ {is : List Insn}, l ∉ placed is → place l is = none
  | [], _ => rfl
  | i :: is, h => by
    by_cases hl : ∃ l', i = .label l'
    · obtain ⟨l', rfl⟩ := hl
      rw [place, if_neg fun e => h (by simp [placed, e])]
      exact place_absent fun h' => h (List.mem_cons_of_mem _ h')
    · have h1 : placed (i :: is) = placed is := by
        cases i
        case label l => exact absurd ⟨_, rfl⟩ hl
        all_goals rfl
      rw [h1] at h
      have ih := place_absent h
      have : place l (i :: is) = (place l is).map (· + if (normal i).isSome then 1 else 0) := by
        cases i
        case label l => exact absurd ⟨_, rfl⟩ hl
        all_goals rfl
      rw [this, ih]
      rfl

theorem labels_build (l : Label) : ∀ (is : List Insn) {b : CodeBuf} {ps : List Bytes}, (placed is).Nodup →
    ps.length = (is.filterMap normal).length → (build b is ps).labels.lookup l =
      match place l is with
      | some k => some (spot (b.buf.length, b.cur.length) (is.filterMap normal) ps k)
      | none => b.labels.lookup l
  | [], _, _, _, _ => rfl
  | i :: is, b, ps, hn, hp => by
    by_cases hl : ∃ l', i = .label l'
    · obtain ⟨l', rfl⟩ := hl
      have hn' : l' ∉ placed is ∧ (placed is).Nodup := List.nodup_cons.mp hn
      rw [build_label, labels_build l is hn'.2 hp, place]
      by_cases he : l' = l
      · cases he
        rw [if_pos rfl, place_absent hn'.1]
        simp only
        rw [List.lookup_cons_self, spot_zero]
      · rw [if_neg he]
        have he' : (l == l') = false := by simpa using fun e => he e.symm
        cases place l is with
        | some k => rfl
        | none => simp only [List.lookup_cons, he']
    · have h1 : placed (i :: is) = placed is := by
        cases i
        case label l => exact absurd ⟨_, rfl⟩ hl
        all_goals rfl
      have h2 : place l (i :: is) = (place l is).map (· + if (normal i).isSome then 1 else 0) := by
        cases i
        case label l => exact absurd ⟨_, rfl⟩ hl
        all_goals rfl
      rw [h1] at hn
      rw [h2]
      cases he : normal i with
      | none =>
        rw [List.filterMap_cons_none he] at hp ⊢
        rw [build_none (fun l e => hl ⟨l, e⟩) he, labels_build l is hn hp]
        cases place l is <;> rfl
      | some j =>
        rw [List.filterMap_cons_some he] at hp ⊢
        match ps, hp with
        | p :: ps, hp =>
          rw [build_some he, labels_build l is hn (by simpa using hp)]
          cases place l is with
          | none =>
            show (addPiece b i p).labels.lookup l = _
            unfold addPiece
            cases asBranch i <;> rfl
          | some k =>
            simp only [Option.map_some, Option.isSome_some, if_true]
            rw [spot, asBranch_normal he, Option.isSome_map]
            unfold addPiece
            cases asBranch i with
            | none => simp
            | some j => simp [CodeBuf.branch]

/-! ## Assembly depends on labels only through their places -/

def brTargets : Branch → List Label
  | .lookup d t => d :: t.map Prod.snd
  | .table d _ ls => d :: ls
  | .jump _ l => [l]
  | .jsr l => [l]

theorem sortBr_targets (j : Branch) : ∀ l ∈ brTargets (sortBr j), l ∈ brTargets j := by
  cases j with
  | lookup d t =>
    intro l hl
    rcases List.mem_cons.mp hl with rfl | hl
    · exact .head _
    · obtain ⟨e, he, rfl⟩ := List.mem_map.mp hl
      exact .tail _ (List.mem_map.mpr ⟨e, List.mem_mergeSort.mp he, rfl⟩)
  | _ => exact fun l hl => hl

theorem sort_idem (t : List (Int32 × Label)) :
    (t.mergeSort fun a b => decide (a.1.toInt ≤ b.1.toInt)).mergeSort (fun a b => decide (a.1.toInt ≤ b.1.toInt)) =
      t.mergeSort fun a b => decide (a.1.toInt ≤ b.1.toInt) :=
  List.mergeSort_of_pairwise (List.pairwise_mergeSort (le := fun a b : Int32 × Label => decide (a.1.toInt ≤ b.1.toInt))
      (by intro a b c; simp; omega) (by intro a b; simp; omega) t)

section
variable {L L' : List (Label × (Nat × Nat))} {f : Label → Label} {U : Label → Prop}

theorem findLabel_ren (h : ∀ l, U l → L'.lookup (f l) = L.lookup l) {l : Label} (hl : U l) :
    findLabel L' (f l) = findLabel L l := by
  unfold findLabel
  rw [h l hl]

theorem targetOff_ren (h : ∀ l, U l → L'.lookup (f l) = L.lookup l) (H : List Nat) {l : Label} (hl : U l) :
    targetOff L' H (f l) = targetOff L H l := by
  unfold targetOff
  rw [findLabel_ren h hl]

theorem size_ren (h : ∀ l, U l → L'.lookup (f l) = L.lookup l) (H : List Nat) (p : Nat) {j : Branch}
    (hj : ∀ l ∈ brTargets j, U l) : (renBr f j).size L' H p = j.size L H p := by
  cases j with
  | lookup d t => simp only [renBr, Branch.size, List.length_map]
  | table d low ls => simp only [renBr, Branch.size, List.length_map]
  | jsr l => simp only [renBr, Branch.size, targetOff_ren h H (hj l (.head _))]
  | jump c l => cases c <;> simp only [renBr, Branch.size, targetOff_ren h H (hj l (.head _))]

theorem size_sort (H : List Nat) (p : Nat) (j : Branch) : (sortBr j).size L H p = j.size L H p := by
  cases j with
  | lookup d t => simp only [sortBr, Branch.size, List.length_mergeSort]
  | _ => rfl

theorem resolveLabel_ren (h : ∀ l, U l → L'.lookup (f l) = L.lookup l) (I : List Nat) (s p : Nat) {l : Label} (hl : U l) :
    resolveLabel L' I s p (f l) = resolveLabel L I s p l := by
  unfold resolveLabel
  rw [findLabel_ren h hl]

theorem resolveAll_ren (h : ∀ l, U l → L'.lookup (f l) = L.lookup l) (I : List Nat) (s p : Nat) :
    ∀ {ls : List Label}, (∀ l ∈ ls, U l) → resolveAll L' I s p (ls.map f) = resolveAll L I s p ls
  | [], _ => rfl
  | l :: ls, hl => by
    rw [List.map_cons, resolveAll, resolveAll, resolveLabel_ren h I s p (hl l (.head _)),
      resolveAll_ren h I s p fun l h => hl l (.tail _ h)]

theorem resolvePairs_ren (h : ∀ l, U l → L'.lookup (f l) = L.lookup l) (I : List Nat) (s p : Nat) :
    ∀ {t : List (Int32 × Label)}, (∀ e ∈ t, U e.2) →
      resolvePairs L' I s p (t.map fun e => (e.1, f e.2)) = resolvePairs L I s p t
  | [], _ => rfl
  | (k, l) :: t, hl => by
    rw [List.map_cons, resolvePairs, resolvePairs, resolveLabel_ren h I s p (hl (k, l) (.head _)),
      resolvePairs_ren h I s p fun l h => hl l (.tail _ h)]

theorem emit_ren (h : ∀ l, U l → L'.lookup (f l) = L.lookup l) (I : List Nat) (s p : Nat) {j : Branch}
    (hj : ∀ l ∈ brTargets j, U l) : (renBr f j).emit L' I s p = j.emit L I s p := by
  cases j with
  | lookup d t =>
    simp only [renBr, Branch.emit, List.length_map, resolveLabel_ren h I s p (hj d (.head _))]
    rw [← List.map_mergeSort (r := fun a b : Int32 × Label => decide (a.1.toInt ≤ b.1.toInt)) (fun _ _ _ _ => rfl),
      resolvePairs_ren h I s p]
    exact fun e he => hj e.2 (.tail _ (List.mem_map.mpr ⟨e, List.mem_mergeSort.mp he, rfl⟩))
  | table d low ls =>
    simp only [renBr, Branch.emit, List.length_map, resolveLabel_ren h I s p (hj d (.head _)),
      resolveAll_ren h I s p fun l h => hj l (.tail _ h)]
  | jsr l => simp only [renBr, Branch.emit, resolveLabel_ren h I s p (hj l (.head _))]
  | jump c l => cases c <;> simp only [renBr, Branch.emit, resolveLabel_ren h I s p (hj l (.head _))]

theorem emit_sort (I : List Nat) (s p : Nat) (j : Branch) : (sortBr j).emit L I s p = j.emit L I s p := by
  cases j with
  | lookup d t => simp only [sortBr, Branch.emit, List.length_mergeSort, sort_idem]
  | _ => rfl

theorem maxSize_sort (j : Branch) : (sortBr j).maxSize = j.maxSize := by
  cases j with
  | lookup d t => simp only [sortBr, Branch.maxSize, List.length_mergeSort]
  | _ => rfl

theorem maxSize_ren (j : Branch) : (renBr f j).maxSize = j.maxSize := by
  cases j with
  | jump c l => cases c <;> rfl
  | jsr => rfl
  | _ => simp only [renBr, Branch.maxSize, List.length_map]

/-- Branches that are treated alike. -/
def Likewise (L L' : List (Label × (Nat × Nat))) (j j' : Branch) : Prop :=
  j'.maxSize = j.maxSize ∧ (∀ H p, j'.size L' H p = j.size L H p) ∧ ∀ I s p, j'.emit L' I s p = j.emit L I s p

theorem likewise_of (h : ∀ l, U l → L'.lookup (f l) = L.lookup l) {j j' : Branch} (hj : ∀ l ∈ brTargets j, U l)
    (he : sortBr j' = renBr f (sortBr j)) : Likewise L L' j j' := by
  have hs : ∀ l ∈ brTargets (sortBr j), U l := fun l hl => hj l (sortBr_targets j l hl)
  refine ⟨?_, fun H p => ?_, fun I s p => ?_⟩
  · rw [← maxSize_sort j', he, maxSize_ren, maxSize_sort]
  · rw [← size_sort H p j', he, size_ren h H p hs, size_sort]
  · rw [← emit_sort I s p j', he, emit_ren h I s p hs, emit_sort]

theorem hints_likewise {js js' : List Branch} (h : Matched (Likewise L L') js js') :
    ∀ (n : Nat) (bs : List Bytes), hintsFrom n js' bs = hintsFrom n js bs := by
  induction h with
  | nil => intro n bs; rfl
  | cons h _ ih =>
    intro n bs
    cases bs with
    | nil => rfl
    | cons b bs => rw [hintsFrom, hintsFrom, h.1, ih]

theorem layout_likewise {js js' : List Branch} (h : Matched (Likewise L L') js js') (H : List Nat) :
    ∀ (n : Nat) (bs : List Bytes), layoutFrom L' H n js' bs = layoutFrom L H n js bs := by
  induction h with
  | nil => intro n bs; rfl
  | cons h _ ih =>
    intro n bs
    cases bs with
    | nil => rfl
    | cons b bs =>
      rw [layoutFrom, layoutFrom, h.2.1]
      cases Branch.size L H (n + b.length) _ with
      | error e => rfl
      | ok s => simp only [ih]

theorem emits_likewise {js js' : List Branch} (h : Matched (Likewise L L') js js') (I : List Nat) :
    ∀ (bs : List Bytes) (r : List (Nat × Nat)), emitFrom L' I js' bs r = emitFrom L I js bs r := by
  induction h with
  | nil => intro bs r; cases bs <;> cases r <;> rfl
  | cons h _ ih =>
    intro bs r
    cases bs with
    | nil => cases r <;> rfl
    | cons b bs =>
      cases r with
      | nil => rfl
      | cons e r => rw [emitFrom, emitFrom, h.2.2, ih]

end

/-- The same code, with the labels in the same places. -/
structure SameCode (U : Label → Prop) (f : Label → Label) (a a' : Assembled) : Prop where
  len : a'.len = a.len
  code : a'.code = a.code
  label : ∀ l, U l → a'.label (f l) = a.label l

inductive SameRes {α : Type} (R : α → α → Prop) : Res α → Res α → Prop
  | error (e : Err) : SameRes R (.error e) (.error e)
  | ok {a b : α} : R a b → SameRes R (.ok a) (.ok b)

theorem assemble_likewise {U : Label → Prop} {f : Label → Label} {b b' : CodeBuf} (hb : b'.buf = b.buf) (hc : b'.cur = b.cur)
    (hl : ∀ l, U l → b'.labels.lookup (f l) = b.labels.lookup l)
    (hj : Matched (Likewise b.labels b'.labels) b.jumps b'.jumps) :
    SameRes (SameCode U f) (assemble b) (assemble b') := by
  unfold assemble
  simp only [hb, hc, hints_likewise hj]
  cases hintsFrom 0 b.jumps (b.buf ++ [b.cur]) with
  | error e => exact .error e
  | ok H =>
    simp only [layout_likewise hj H]
    cases layoutFrom b.labels H 0 b.jumps (b.buf ++ [b.cur]) with
    | error e => exact .error e
    | ok r =>
      simp only [← matched_len hj]
      cases (b.buf ++ [b.cur])[b.jumps.length]? with
      | none => exact .error _
      | some last =>
        cases b.buf ++ [b.cur] with
        | nil => exact .error _
        | cons first rest =>
          simp only [emits_likewise hj]
          cases emitFrom b.labels (r.map Prod.snd) b.jumps rest r with
          | error e => exact .error e
          | ok code =>
            refine .ok ⟨rfl, rfl, fun l h => ?_⟩
            show labelPos _ _ _ = labelPos _ _ _
            unfold labelPos
            rw [hl l h]

theorem build_jumps : ∀ (is : List Insn) {b : CodeBuf} {ps : List Bytes}, ∀ j ∈ (build b is ps).jumps,
    j ∈ b.jumps ∨ ∃ i ∈ is, asBranch i = some j
  | [], _, _, j, h => .inl h
  | i :: is, b, ps, j, h => by
    by_cases hl : ∃ l, i = .label l
    · obtain ⟨l, rfl⟩ := hl
      rw [build_label] at h
      rcases build_jumps is j h with h | ⟨i, hi, h⟩
      · exact .inl h
      · exact .inr ⟨i, .tail _ hi, h⟩
    · cases hn : normal i with
      | none =>
        rw [build_none (fun l e => hl ⟨l, e⟩) hn] at h
        rcases build_jumps is j h with h | ⟨i, hi, h⟩
        · exact .inl h
        · exact .inr ⟨i, .tail _ hi, h⟩
      | some k =>
        match ps with
        | [] =>
          have : build b (i :: is) [] = b := by
            rw [build_other fun l e => hl ⟨l, e⟩, hn]
            rfl
          rw [this] at h
          exact .inl h
        | p :: ps =>
          rw [build_some hn] at h
          rcases build_jumps is j h with h | ⟨i, hi, h⟩
          · unfold addPiece at h
            split at h
            · rename_i k hk
              rcases List.mem_append.mp h with h | h
              · exact .inl h
              · exact .inr ⟨i, .head _, by rw [hk, List.mem_singleton.mp h]⟩
            · exact .inl h
          · exact .inr ⟨i, .tail _ hi, h⟩

theorem branch_targets {i : Insn} {j : Branch} (h : asBranch i = some j) :
    ∃ i', normal i = some i' ∧ ∀ l ∈ brTargets j, l ∈ targets i' := by
  cases i
  case lookupSwitch d t =>
    cases h
    refine ⟨_, rfl, fun l hl => ?_⟩
    rcases List.mem_cons.mp hl with rfl | hl
    · exact .head _
    · obtain ⟨e, he, rfl⟩ := List.mem_map.mp hl
      exact .tail _ (List.mem_map.mpr ⟨e, List.mem_mergeSort.mpr he, rfl⟩)
  case tableSwitch => cases h; exact ⟨_, rfl, fun l hl => hl⟩
  case jump => cases h; exact ⟨_, rfl, fun l hl => hl⟩
  case jsr => cases h; exact ⟨_, rfl, fun l hl => hl⟩
  all_goals cases h

theorem matched_of_maps {α β γ : Type} {f : α → γ} {g : β → γ} {R : α → β → Prop} :
    ∀ {as : List α} {bs : List β}, bs.map g = as.map f → (∀ a ∈ as, ∀ b, g b = f a → R a b) → Matched R as bs
  | [], [], _, _ => .nil
  | [], _ :: _, h, _ => nomatch h
  | _ :: _, [], h, _ => nomatch h
  | a :: as, b :: bs, h, hR => by
    rw [List.map_cons, List.map_cons, List.cons.injEq] at h
    exact .cons (hR a (.head _) b h.1) (matched_of_maps h.2 fun a ha => hR a (.tail _ ha))

theorem pieces_ren (f : Label → Label) : ∀ is : List Insn, pieces (is.map (renI f)) = pieces is
  | [] => rfl
  | i :: is => by
    rw [List.map_cons, pieces, pieces, pieces_ren f is, encode_ren]

/-- The same instructions with other names for labels are assembled to the same code. -/
theorem writeCode_same {U : Label → Prop} {f : Label → Label} {x y : List Insn} (hx : (placed x).Nodup)
    (hy : (placed y).Nodup) (hn : y.filterMap normal = (x.filterMap normal).map (renI f))
    (ht : ∀ i ∈ x.filterMap normal, ∀ l ∈ targets i, U l)
    (hp : ∀ l, U l → (place l x).isSome ∧ place (f l) y = place l x) (cp : VecCp) :
    SameRes (fun p q => q.2 = p.2 ∧ SameCode U f p.1 q.1) (writeCode x cp) (writeCode y cp) := by
  have hw : ∀ is, writeCode is cp = match pieces (is.filterMap normal) cp with
      | .error e => .error e
      | .ok (ps, cp) => Ins.lift (assemble (build .empty is ps)) cp := by
    intro is
    unfold writeCode
    show Ins.bind _ _ cp = _
    unfold Ins.bind
    rw [writeInsns_build]
    cases pieces (is.filterMap normal) cp <;> rfl
  rw [hw, hw, hn, pieces_ren]
  cases hps : pieces (x.filterMap normal) cp with
  | error e => exact .error e
  | ok r =>
    obtain ⟨ps, cp'⟩ := r
    have hlen := pieces_length hps
    have hlen' : ps.length = (y.filterMap normal).length := by rw [hn, List.length_map, hlen]
    have hself : ∀ i ∈ x.filterMap normal, normal i = some i := fun i hi => by
      obtain ⟨j, _, hj⟩ := List.mem_filterMap.mp hi
      exact normal_idem hj
    have c1 := build_core x (b := .empty) (b' := .empty) hlen ⟨rfl, rfl, rfl⟩
    have c2 := build_core y (b := .empty) (b' := .empty) hlen' ⟨rfl, rfl, rfl⟩
    have c3 := build_ren f (x.filterMap normal) (b := .empty) (b' := .empty) hlen hself ⟨rfl, rfl, rfl⟩
    rw [hn] at c2
    have hlab : ∀ l, U l → (build .empty y ps).labels.lookup (f l) = (build .empty x ps).labels.lookup l := by
      intro l hl
      rw [labels_build _ y hy hlen', labels_build _ x hx hlen, (hp l hl).2, hn]
      obtain ⟨k, hk⟩ := Option.isSome_iff_exists.mp (hp l hl).1
      rw [hk]
      simp only [spot_ren]
    have hb : (build .empty y ps).buf = (build .empty x ps).buf := by rw [← c2.buf, c3.buf, c1.buf]
    have hc : (build .empty y ps).cur = (build .empty x ps).cur := by rw [← c2.cur, c3.cur, c1.cur]
    have hj : (build .empty y ps).jumps.map sortBr = (build .empty x ps).jumps.map fun j => renBr f (sortBr j) := by
      rw [← c2.jumps, c3.jumps, c1.jumps, List.map_map]
      rfl
    have hm := matched_of_maps (R := Likewise (build .empty x ps).labels (build .empty y ps).labels) hj
      fun j hj j' he => likewise_of hlab (fun l hl => by
        rcases build_jumps x j hj with h | ⟨i, hi, h⟩
        · cases h
        · obtain ⟨i', h1, h2⟩ := branch_targets h
          exact ht i' (List.mem_filterMap.mpr ⟨i, hi, h1⟩) l (h2 l hl)) he
    have := assemble_likewise hb hc hlab hm
    show SameRes _ (Ins.lift _ cp') (Ins.lift _ cp')
    unfold Ins.lift
    generalize assemble _ = A at this ⊢
    generalize assemble (build .empty y ps) = A' at this ⊢
    cases this with
    | error e => exact .error e
    | ok h => exact .ok ⟨rfl, h⟩

end Verif
