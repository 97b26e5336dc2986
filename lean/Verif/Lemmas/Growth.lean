import Verif.Spec.Growth
import Verif.Lemmas.Skeleton
import Verif.Lemmas.SharedEnds
import Verif.Lemmas.Storable

/-! # The number of bootstrap methods of a copy -/

namespace Verif
open Spec

/-! ## Writing -/

theorem round_few {bs : List Bsm} {cp cp' : VecCp} {out : Bytes} (hi : cp.Inv)
    (h : wAll Bsm.write bs { cp with bsm := [] } = .ok (out, cp')) : cp'.Inv ∧ cp'.bsm.length < 65536 := by
  have := Reg.all (fun b _ => reg_bsm) _ _ _ h ⟨hi.len, hi.cache⟩ fun j hj => by cases hj
  exact ⟨this.1, numbered_short this.1 this.2⟩

/-- The number that the loop counts, if the first round is short. -/
theorem batches_count {i n : Nat} {cp cp' : VecCp} {bs : Bytes} (h : writeBatches i cp = .ok (n, bs, cp'))
    (hi : cp.Inv) (hl : cp.bsm.length < 65536) (h0 : i < 65536) : n = i + bsmNodes cp.bsm ∧ n < 65536 := by
  fun_induction writeBatches i cp generalizing n bs cp' with
  | case1 i cp h1 =>
    cases h
    rw [List.length_eq_zero_iff.mp h1]
    exact ⟨rfl, h0⟩
  | case2 => cases h
  | case3 => cases h
  | case4 i cp h1 h2 b cp1 e1 hn n' b' cp2 e2 ih =>
    cases h
    obtain ⟨i1, l1⟩ := round_few hi e1
    have := ih e2 i1 l1 h2
    rw [(round_bsm e1).1] at this
    have h3 := bsmNodes_args cp.bsm
    rw [Nat.mod_eq_of_lt hl] at this
    omega
  | case5 => cases h
  | case6 => cases h

/-- All but the first round are short in any case. -/
theorem batches_limit {n : Nat} {cp cp' : VecCp} {bs : Bytes} (h : writeBatches 0 cp = .ok (n, bs, cp'))
    (hi : cp.Inv) : bsmNodes (cp.bsm.flatMap argBsms) < 65536 := by
  rw [writeBatches] at h
  split at h
  · rename_i h1
    rw [List.length_eq_zero_iff.mp h1]
    decide
  split at h
  · rename_i h2
    split at h
    · cases h
    · rename_i b cp1 e1
      split at h
      · split at h
        · cases h
        · rename_i n' b' cp2 e2
          cases h
          obtain ⟨i1, l1⟩ := round_few hi e1
          have := batches_count e2 i1 l1 h2
          rw [(round_bsm e1).1] at this
          omega
      · cases h
  · cases h

theorem rounds_count (ts : List Bsm) : (rounds (bsmNodes ts) ts).length = bsmNodes ts := by
  induction hm : bsmNodes ts using Nat.strongRecOn generalizing ts with
  | ind m ih =>
    subst hm
    rcases ts with _ | ⟨t, ts⟩
    · rfl
    · have h := bsmNodes_args (t :: ts)
      rw [rounds_step, List.length_append, ih _ (by simp only [List.length_cons] at h; omega) _ rfl]
      omega

/-- Whatever is written: the entries of arguments, of their arguments and so on are fewer than 65536. -/
theorem write_limit {S : Bytes → Prop} (hN : ∀ n ∈ allNames, S n) {x : Class} (hs : AllClass S x) {bs : Bytes}
    (h : x.write = .ok bs) : bsmNodes ((usedBsms x).flatMap argBsms) < 65536 := by
  unfold Class.write at h
  rcases e : wSeq [x.writeBody, wBootstrap] { VecCp.new with bsm := ownBsms x.attrs } with e' | ⟨buf, cp⟩
  · rw [e] at h
    cases h
  have hc0 : VecCp.Inv { VecCp.new with bsm := ownBsms x.attrs } := ⟨VecCp.inv_new.len, VecCp.inv_new.cache⟩
  obtain ⟨b1, cp1, e1, e⟩ := Ins.bind_ok e
  obtain ⟨b2', cp2, e2, e⟩ := Ins.bind_ok e
  obtain ⟨b2, cp2', e2, e⟩ := Ins.bind_ok e2
  have f1 := eff_classBody hN hs _ _ _ e1
  have hb1 : cp1.bsm = usedBsms x := by rw [f1.1, ownBsms_eq]; rfl
  unfold wBootstrap at e2
  split at e2
  · rename_i h0
    rw [hb1] at h0
    rw [List.length_eq_zero_iff.mp h0]
    decide
  · rcases e3 : writeBatches 0 cp1 with e | ⟨n, b, cp3⟩
    · rw [e3] at e2
      cases e2
    · have := batches_limit e3 (f1.2.2 hc0).1
      rwa [hb1] at this

/-! ## The file -/

theorem bootstrap_count {cp cp' : VecCp} {bs : Bytes} (h : wBootstrap cp = .ok (bs, cp')) (hi : cp.Inv)
    (hn : cp.bsm ≠ []) (hl : cp.bsm.length < 65536) (hb : bs.length < 4294967296) :
    ∃ name content, bs = U2 name ++ U4 (content.length + 2) ++ U2 (bsmNodes cp.bsm) ++ content ∧
      Spec.At cp'.entries name (.utf8 N.bootstrapMethods) := by
  unfold wBootstrap at h
  rw [if_neg (by rw [List.length_eq_zero_iff]; exact hn)] at h
  rcases e1 : writeBatches 0 cp with e | ⟨n, b, cp1⟩
  · rw [e1] at h
    cases h
  rw [e1] at h
  simp only at h
  obtain ⟨c1, c2⟩ := batches_count e1 hi hl (by decide)
  have i1 := (batches_ok e1 (fun b _ => allBsm_true b) hi).1
  rcases e2 : wUtf8 N.bootstrapMethods cp1 with e | ⟨name, cp2⟩
  · rw [e2] at h
    cases h
  rw [e2] at h
  simp only at h
  split at h
  · cases h
    obtain ⟨j, cp3, e3, e4⟩ := Ins.bind_ok e2
    cases e4
    simp only [List.length_append] at hb
    have hlb : b.length + 2 < 4294967296 := by
      have : (u16.write (UInt16.ofNat n)).length = 2 := rfl
      omega
    refine ⟨j.toNat, b, ?_, ?_⟩
    · rw [Nat.mod_eq_of_lt (show b.length < 4294967296 by omega), u32_write, UInt32.toNat_ofNat',
        Nat.mod_eq_of_lt (by omega), u16_write, u16_write, UInt16.toNat_ofNat', Nat.mod_eq_of_lt c2, c1, Nat.zero_add]
    · exact (insertRaw_ok i1 e3).2.2.1
  · cases h

theorem table_count {x : Class} (hs : AllClass Fitting x) (hi : x.interfaces.length < 65536)
    (hf : x.fields.length < 65536) (hm : x.methods.length < 65536) (hn : usedBsms x ≠ [])
    (hu : (usedBsms x).length < 65536) {bs : Bytes} (h : x.write = .ok bs) (hl : bs.length < 4294967296) :
    TableCount (x.attrs.filter fun a => !isBootstrap a).length bs (bsmNodes (usedBsms x)) := by
  obtain ⟨cp1, cp, b1, b2, pool, e1, e2, hb, hp, rfl⟩ := write_parts hs h
  simp only [List.length_append] at hl
  have hc0 : VecCp.Inv { VecCp.new with bsm := ownBsms x.attrs } := ⟨VecCp.inv_new.len, VecCp.inv_new.cache⟩
  have i1 := ((eff_classBody names_fitting hs _ _ _ e1).2.2 hc0).1
  obtain ⟨name, content, rfl, hname⟩ := bootstrap_count e2 i1 (by rw [hb]; exact hn) (by rw [hb]; exact hu) (by omega)
  rw [hb] at hl ⊢
  generalize hR : U2 name ++ U4 (content.length + 2) ++ U2 (bsmNodes (usedBsms x)) ++ content = R at hl ⊢
  have h1 : Shape x.writeBody _ := Shape.cons (shape_flags _) (Shape.cons (shape_idx _) (Shape.cons (shape_opt _ _)
    (Shape.cons (shape_cut (shape_indices fun s _ => shape_idx _))
    (Shape.cons (shape_cut (shape_members fun f _ => shape_field f))
    (Shape.cons (shape_cut (shape_members fun m _ => shape_method m))
    (Shape.cons (shape_cut (shape_others _)) Shape.nil))))))
  obtain ⟨c1, _, rfl, g1, c2, _, rfl, g2, c3, _, rfl, g3, _, _, rfl, ⟨c4, g4, rfl⟩, _, _, rfl, ⟨c5, g5, rfl⟩,
    _, _, rfl, ⟨c6, g6, rfl⟩, _, _, rfl, ⟨c7, g7, rfl⟩, rfl⟩ := h1 _ _ _ e1 (by omega)
  refine ⟨cp.entries, _, pool, _, name, content, hp, rfl, rfl, ?_, hname⟩
  rw [hR]
  have e : (c1 ++ (c2 ++ (c3 ++ (U2 (x.interfaces.length % 65536) ++ c4 ++
    (U2 (x.fields.length % 65536) ++ c5 ++ (U2 (x.methods.length % 65536) ++ c6 ++
    (U2 (x.attrs.length % 65536) ++ c7 ++ [])))))) ++ R) = (c1 ++ c2 ++ c3) ++ (U2 x.interfaces.length ++ (c4 ++
    (U2 x.fields.length ++ (c5 ++ (U2 x.methods.length ++ (c6 ++
    (U2 (x.attrs.length % 65536) ++ (c7 ++ R)))))))) := by
    rw [Nat.mod_eq_of_lt hi, Nat.mod_eq_of_lt hf, Nat.mod_eq_of_lt hm]
    simp
  have l : (c1 ++ c2 ++ c3).length = 6 := by simp only [List.length_append]; omega
  rw [e, walkUpTo, if_pos (by rw [List.length_append]; omega)]
  have d := List.drop_left (l₁ := c1 ++ c2 ++ c3) (l₂ := U2 x.interfaces.length ++ (c4 ++
    (U2 x.fields.length ++ (c5 ++ (U2 x.methods.length ++ (c6 ++
    (U2 (x.attrs.length % 65536) ++ (c7 ++ R))))))))
  rw [l] at d
  rw [d, walkTable_U2 _ hi, walkIndices, if_pos (by rw [List.length_append]; omega), ← g4, List.drop_left,
    Option.bind_some, walkTable_U2 _ hf, g5, Option.bind_some, walkTable_U2 _ hm, g6, Option.bind_some,
    walkTable_U2 _ (Nat.mod_lt _ (by omega)), g7]

/-! ## Sizes -/

theorem argNodes_cons (a : Arg) (as : List Arg) : argNodes (a :: as) = argNodes [a] + argNodes as := by
  cases a with
  | static c => rw [argNodes, argNodes, argNodes]; omega
  | dynamic c n t => rw [argNodes, argNodes, argNodes]; omega

theorem argEntries_cons (h h' : MethodHandle) (a : Arg) (as : List Arg) :
    argEntries ⟨h, a :: as⟩ = argEntries ⟨h', [a]⟩ ++ argEntries ⟨h, as⟩ := by
  unfold argEntries
  rw [← List.filterMap_append]
  rfl

/-- The nodes of the arguments of an entry that was read, when it is filled. -/
theorem fill_nodes {T : List Bsm} (hT : ∀ b ∈ T, ArgsShared b) : ∀ (n : Nat) (b : Bsm), ArgsShared b →
    argNodes (b.arguments.map (fillArg T n)) = ((argEntries b).map (entrySize T n)).sum := by
  intro n
  induction n with
  | zero =>
    rintro ⟨h, as⟩ hb
    induction as with
    | nil => rfl
    | cons a as ih =>
      rw [argEntries_cons h h, List.map_append, List.sum_append, List.map_cons, argNodes_cons, ih fun a' ha => hb a' (.tail _ ha)]
      congr 1
      cases a with
      | static c => rfl
      | dynamic c n t =>
        obtain ⟨k, rfl⟩ := hb _ (.head _) _ _ _ rfl
        rfl
  | succ n ihn =>
    rintro ⟨h, as⟩ hb
    induction as with
    | nil => rfl
    | cons a as ih =>
      rw [argEntries_cons h h, List.map_append, List.sum_append, List.map_cons, argNodes_cons, ih fun a' ha => hb a' (.tail _ ha)]
      congr 1
      cases a with
      | static c => rfl
      | dynamic c nm t =>
        obtain ⟨k, rfl⟩ := hb _ (.head _) _ _ _ rfl
        show argNodes [fillArg T (n + 1) (.dynamic (.pending k) nm t)] = entrySize T (n + 1) k.toNat + 0
        rw [fillArg, entrySize]
        rcases hk : T[k.toNat]? with _ | b
        · rfl
        · simp only
          rw [argNodes, Cell.nodes, argNodes, ihn b (hT b (List.mem_of_getElem? hk))]

theorem fill_table {T : List Bsm} (hT : ∀ b ∈ T, ArgsShared b) (n : Nat) : ∀ (bs : List Bsm), (∀ b ∈ bs, ArgsShared b) →
    bsmNodes (bs.map (fillBsm T n)) = bs.length + ((bs.flatMap argEntries).map (entrySize T n)).sum
  | [], _ => rfl
  | b :: bs, h => by
    rw [List.map_cons, bsmNodes_cons, fill_table hT n bs fun b hb => h b (.tail _ hb), List.flatMap_cons, List.map_append,
      List.sum_append, List.length_cons, ← fill_nodes hT n b (h b (.head _))]
    show 1 + argNodes (b.arguments.map (fillArg T n)) + _ = _
    omega

theorem own_size {T : List Bsm} (hT : ∀ b ∈ T, ArgsShared b) (n : Nat) (d : Dynamic) (hd : Shared d) :
    bsmNodes (ownBsm (d.look (T.map (fillBsm T n)))) = ((dynEntry d).map (entrySize T (n + 1))).sum := by
  obtain ⟨k, hk⟩ := hd
  unfold Dynamic.look ownBsm dynEntry
  rw [hk]
  simp only [Cell.look, List.getElem?_map, List.map_cons, List.map_nil, List.sum_cons, List.sum_nil]
  rw [entrySize]
  rcases hb : T[k.toNat]? with _ | b
  · rfl
  · simp only [Option.map_some]
    have := fill_table hT n [b] fun b' hb' => by
      rw [List.mem_singleton.mp hb']
      exact hT b (List.mem_of_getElem? hb)
    rw [List.flatMap_cons, List.flatMap_nil, List.append_nil] at this
    exact this

theorem own_sizes {T : List Bsm} (hT : ∀ b ∈ T, ArgsShared b) (n : Nat) : ∀ (ds : List Dynamic), (∀ d ∈ ds, Shared d) →
    bsmNodes ((ds.map (Dynamic.look (T.map (fillBsm T n)))).flatMap ownBsm) =
      ((ds.flatMap dynEntry).map (entrySize T (n + 1))).sum
  | [], _ => rfl
  | d :: ds, h => by
    rw [List.map_cons, List.flatMap_cons, bsmNodes_append, own_sizes hT n ds fun d hd => h d (.tail _ hd), List.flatMap_cons,
      List.map_append, List.sum_append, own_size hT n d (h d (.head _))]

theorem completed_size {x : Class} (h : SharedClass x) : bsmNodes (usedBsms (completed x)) = copySize x := by
  have hT : ∀ b ∈ bsmTable x.attrs, ArgsShared b := fun b hb => (table_shared h b hb).2
  rw [usedBsms, bsmNodes_append, completed_given, completed_dynamics, fullTable, own_sizes hT _ _ h.cells,
    fill_table hT _ _ fun b hb => (given_shared h b hb).2]
  rfl

theorem nodes_mem {b : Bsm} : ∀ {bs : List Bsm}, b ∈ bs → argNodes b.arguments ≤ bsmNodes (bs.flatMap argBsms)
  | b' :: bs, h => by
    rw [List.flatMap_cons, bsmNodes_append]
    rcases List.mem_cons.mp h with rfl | h
    · have := bsmNodes_args [b]
      rw [List.flatMap_cons, List.flatMap_nil, List.append_nil, bsmNodes_cons] at this
      simp only [List.length_cons, List.length_nil] at this
      have e : bsmNodes ([] : List Bsm) = 0 := rfl
      omega
    · have := nodes_mem h
      omega

/-- What the completed class uses are entries of the table, whether or not there is one. -/
theorem used_full {x : Class} (h : SharedClass x) : ∀ b ∈ usedBsms (completed x), FullBsm x b := by
  intro b hb
  rcases List.mem_append.mp hb with hb | hb
  · rw [completed_given] at hb
    obtain ⟨b', hb', rfl⟩ := List.mem_map.mp hb
    exact ⟨b', hb', rfl⟩
  · rw [completed_dynamics] at hb
    obtain ⟨d, hd, hb⟩ := List.mem_flatMap.mp hb
    obtain ⟨d', hd', rfl⟩ := List.mem_map.mp hd
    obtain ⟨k, hk⟩ := h.cells d' hd'
    unfold Dynamic.look ownBsm at hb
    rw [hk] at hb
    simp only [Cell.look] at hb
    rcases e : (fullTable x)[k.toNat]? with _ | b1
    · rw [e] at hb
      cases hb
    · rw [e] at hb
      cases List.mem_singleton.mp hb
      exact full_table (List.mem_of_getElem? e)

theorem completed_legible {x : Class} (h : SharedClass x) : AllClass Legible (completed x) :=
  completed_all h (used_full h)

/-- An entry of the table that was read. -/
theorem entry_limit {x : Class} (h : SharedClass x) (hs : AllClass Legible (completed x)) {bs : Bytes}
    (hw : (completed x).write = .ok bs) (i : Nat) :
    entrySize (bsmTable x.attrs) ((bsmTable x.attrs).length + 1) i ≤ 65536 := by
  have hT : ∀ b ∈ bsmTable x.attrs, ArgsShared b := fun b hb => (table_shared h b hb).2
  have hl := write_limit (fun n hn => legible_fitting (names_fitting n hn)) hs hw
  rw [entrySize]
  rcases hb : (bsmTable x.attrs)[i]? with _ | b
  · exact Nat.zero_le _
  · simp only
    have hm := List.mem_of_getElem? hb
    have hu : fillBsm (bsmTable x.attrs) (bsmTable x.attrs).length b ∈ usedBsms (completed x) := by
      refine List.mem_append_left _ ?_
      rw [completed_given]
      exact List.mem_map.mpr ⟨b, table_given _ _ hm, rfl⟩
    have := nodes_mem hu
    have e := fill_nodes hT (bsmTable x.attrs).length b (hT b hm)
    have e' : argNodes (fillBsm (bsmTable x.attrs) (bsmTable x.attrs).length b).arguments =
      ((argEntries b).map (entrySize (bsmTable x.attrs) (bsmTable x.attrs).length)).sum := e
    omega

/-! ## Doubling -/

theorem sum_count (f : Nat → Nat) (j : Nat) : ∀ l : List Nat, l.count j * f j ≤ (l.map f).sum
  | [] => by simp
  | a :: l => by
    have ih := sum_count f j l
    rw [List.count_cons, List.map_cons, List.sum_cons]
    by_cases h : a = j
    · subst h
      rw [if_pos (by simp), Nat.add_mul, Nat.one_mul]
      omega
    · rw [if_neg (by simpa using h)]
      simp only [Nat.add_zero]
      omega

theorem doubles_size {T : List Bsm} : ∀ (m d i : Nat), Doubles T m i → m < d → 2 ^ (m + 1) ≤ entrySize T d i + 1
  | 0, d + 1, i, h, _ => by
    have h : i < T.length := h
    rw [entrySize, List.getElem?_eq_getElem h]
    simp only
    omega
  | m + 1, d + 1, i, ⟨b, j, hb, hc, hj⟩, hd => by
    have ih := doubles_size m d j hj (by omega)
    rw [entrySize, hb]
    simp only
    have h1 := sum_count (entrySize T d) j (argEntries b)
    have h2 : 2 * entrySize T d j ≤ (argEntries b).count j * entrySize T d j := Nat.mul_le_mul_right _ hc
    rw [Nat.pow_succ]
    omega

theorem uses_of_arg {T : List Bsm} {i j : Nat} {b : Bsm} (hb : T[i]? = some b) (hj : j ∈ argEntries b) : UsesEntry T i j := by
  obtain ⟨a, ha, hk⟩ := List.mem_filterMap.mp hj
  split at hk
  · cases hk
    exact ⟨b, _, _, _, hb, ha, rfl⟩
  · cases hk

theorem doubles_path {T : List Bsm} : ∀ (m i : Nat), Doubles T m i → ∃ ks : List Nat, ks.length = m ∧
    (i :: ks).Pairwise (Reaches T) ∧ ∀ k ∈ i :: ks, k < T.length
  | 0, i, h => ⟨[], rfl, by simp, fun k hk => by rw [List.mem_singleton.mp hk]; exact h⟩
  | m + 1, i, ⟨b, j, hb, hc, hj⟩ => by
    obtain ⟨ks, h1, h2, h3⟩ := doubles_path m j hj
    have hu := uses_of_arg hb (List.count_pos_iff.mp (by omega) : j ∈ argEntries b)
    refine ⟨j :: ks, by simp [h1], List.pairwise_cons.mpr ⟨fun k hk => ?_, h2⟩, fun k hk => ?_⟩
    · rcases List.mem_cons.mp hk with rfl | hk
      · exact .one hu
      · exact .step hu ((List.pairwise_cons.mp h2).1 k hk)
    · rcases List.mem_cons.mp hk with rfl | hk
      · exact (List.getElem?_eq_some_iff.mp hb).1
      · exact h3 k hk

/-- In a table that is not circular there are fewer steps than entries. -/
theorem doubles_short {T : List Bsm} (hT : ¬ Circular T) {m i : Nat} (h : Doubles T m i) : m < T.length := by
  obtain ⟨ks, h1, h2, h3⟩ := doubles_path m i h
  have hd : (i :: ks).Nodup := h2.imp fun {a b} h (e : a = b) => hT ⟨a, by
    rw [← e] at h
    exact h⟩
  have := nodup_below T.length _ hd h3
  simp only [List.length_cons] at this
  omega

end Verif
