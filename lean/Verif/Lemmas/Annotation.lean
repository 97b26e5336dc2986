import Verif.Lemmas.Frame
import Verif.Spec.Annotation

/-! # Lemmas about annotations -/

namespace Verif
open Spec

/-! ## Writing -/

theorem writes_tagged {α : Type} {env : WEnv} {w : Ins Bytes} {f : Fmt α} {x : α} (t : UInt8)
    (h : Writes env w f x) : Writes env (wSeq [wNum u8 t, w]) (Fmt.tagged t.toNat f) x := by
  refine Writes.weaken (x := x) (Writes.cons (writes_tag env t x) (Writes.cons h (Writes.nil _ _))) ?_
  rintro P bs ⟨b, b', rfl, rfl, b1, b2, rfl, h1, rfl⟩
  exact ⟨b1, by simp, h1⟩

theorem writes_tagged2 {α β : Type} {env : WEnv} {w w' : Ins Bytes} {f : Fmt α} {g : Fmt β} {x : α}
    {y : β} (t : UInt8) (h : Writes env w f x) (h' : Writes env w' g y) :
    Writes env (wSeq [wNum u8 t, w, w']) (Fmt.tagged t.toNat (Fmt.pair f g)) (x, y) := by
  refine Writes.weaken (x := (x, y)) (Writes.cons (writes_tag env t _) (Writes.cons
    (Writes.on (p := Prod.fst) h) (Writes.cons (Writes.on (p := Prod.snd) h') (Writes.nil _ _)))) ?_
  rintro P bs ⟨b, b', rfl, rfl, b1, b2, rfl, h1, b3, b4, rfl, h2, rfl⟩
  exact ⟨b1 ++ b3, by simp, b1, b3, rfl, h1, h2⟩

theorem writes_tagged0 (env : WEnv) (t : UInt8) :
    Writes env (wSeq [wNum u8 t]) (Fmt.tagged t.toNat Fmt.unit) () := by
  refine Writes.weaken (x := ()) (Writes.cons (writes_tag env t _) (Writes.nil _ _)) ?_
  rintro P bs ⟨b, b', rfl, rfl, rfl⟩
  exact ⟨[], rfl, rfl⟩

theorem writes_int (env : WEnv) (x : Int32) {n : Int} (h : x.toInt = n) :
    Writes env (wInt x) Fmt.integer n :=
  writes_idx (Good.weaken (good_raw _) (fun _ _ hi => ⟨x, hi, h⟩))

theorem writes_classText (env : WEnv) {t : JType} (h : Printable t) :
    Writes env (wUtf8 (JType.display t)) Fmt.descr t := by
  obtain ⟨cs, hd, he⟩ := display_printable h
  rw [he]
  exact writes_idx (Good.weaken (good_wtf8 _) (fun _ _ hi => ⟨h.1, cs, hd, hi⟩))

mutual

theorem writes_value (env : WEnv) : (v : AnnValue) → Expressible true v →
    Writes env v.write (fun c v bs => value c v bs) v
  | .byte x, _ => by
    rw [AnnValue.write]
    exact Writes.weaken (writes_tagged 0x42 (writes_int env _ (n := x.toInt) (by simp)))
      (fun _ _ h => by rw [value]; exact h)
  | .char x, _ => by
    rw [AnnValue.write]
    refine Writes.weaken (writes_tagged 0x43 (writes_int env _ (n := x.toNat) ?_))
      (fun _ _ h => by rw [value]; exact h)
    have := x.toNat_lt
    exact Int32.toInt_ofNat_of_lt (by omega)
  | .double x, _ => by
    rw [AnnValue.write]
    exact Writes.weaken (writes_tagged 0x44 (writes_idx (good_raw (.double x))))
      (fun _ _ h => by rw [value]; exact h)
  | .float x, _ => by
    rw [AnnValue.write]
    exact Writes.weaken (writes_tagged 0x46 (writes_idx (good_raw (.float x))))
      (fun _ _ h => by rw [value]; exact h)
  | .int x, _ => by
    rw [AnnValue.write]
    exact Writes.weaken (writes_tagged 0x49 (writes_int env _ rfl)) (fun _ _ h => by rw [value]; exact h)
  | .long x, _ => by
    rw [AnnValue.write]
    exact Writes.weaken (writes_tagged 0x4a (writes_idx (good_raw (.long x))))
      (fun _ _ h => by rw [value]; exact h)
  | .short x, _ => by
    rw [AnnValue.write]
    exact Writes.weaken (writes_tagged 0x53 (writes_int env _ (n := x.toInt) (by simp)))
      (fun _ _ h => by rw [value]; exact h)
  | .boolean x, _ => by
    rw [AnnValue.write]
    refine Writes.weaken (writes_tagged 0x5a (writes_int env _ (n := if x then 1 else 0) ?_))
      (fun _ _ h => by rw [value]; exact h)
    cases x <;> rfl
  | .string s, _ => by
    rw [AnnValue.write]
    exact Writes.weaken (writes_tagged 0x73 (writes_utf8 env s)) (fun _ _ h => by rw [value]; exact h)
  | .enum t s, h => by
    rw [Expressible] at h
    rw [AnnValue.write]
    exact Writes.weaken (writes_tagged2 0x65 (writes_type env h) (writes_utf8 env s))
      (fun _ _ h => by rw [value]; exact h)
  | .cls none, _ => by
    rw [AnnValue.write]
    exact Writes.weaken (writes_tagged 0x63 (writes_utf8 env _)) (fun _ _ h => by rw [value]; exact h)
  | .cls (some t), h => by
    rw [Expressible] at h
    rw [AnnValue.write]
    exact Writes.weaken (writes_tagged 0x63 (writes_classText env (h.2 rfl)))
      (fun _ _ h => by rw [value]; exact h)
  | .annotation t es, h => by
    rw [Expressible] at h
    obtain ⟨h1, h2, h3⟩ := h
    rw [AnnValue.write]
    refine Writes.weaken (x := (t, es)) (Writes.cons (writes_tag env _ _) (Writes.cons
      (Writes.on (p := Prod.fst) (writes_type env h1)) (Writes.cons
      (Writes.weaken (g := fun _ (x : JType × Elems) bs => bs = U2 x.2.length) (writes_u2 env _) ?_)
      (Writes.cons (Writes.on (p := Prod.snd) (writes_pairs env es h3)) (Writes.nil _ _))))) ?_
    · rintro P bs rfl
      simp only [UInt16.toNat_ofNat']
      rw [Nat.mod_eq_of_lt (by omega)]
    · rintro P bs ⟨b, b', rfl, rfl, b1, b2, rfl, h4, b3, b5, rfl, rfl, b6, b7, rfl, h5, rfl⟩
      rw [value]
      exact ⟨b1, b6, by simp, h4, h2, h5⟩
  | .array vs, h => by
    rw [Expressible] at h
    obtain ⟨h1, h2⟩ := h
    rw [AnnValue.write]
    refine Writes.weaken (x := vs) (Writes.cons (writes_tag env _ _) (Writes.cons
      (Writes.weaken (g := fun _ (x : List AnnValue) bs => bs = U2 x.length) (writes_u2 env _) ?_)
      (Writes.cons (writes_values env vs h2) (Writes.nil _ _)))) ?_
    · rintro P bs rfl
      simp only [UInt16.toNat_ofNat']
      rw [Nat.mod_eq_of_lt (by omega)]
    · rintro P bs ⟨b, b', rfl, rfl, b3, b5, rfl, rfl, b6, b7, rfl, h5, rfl⟩
      rw [value]
      exact ⟨b6, by simp, h1, h5⟩

theorem writes_values (env : WEnv) : (vs : List AnnValue) → ExpressibleAll true vs →
    Writes env (AnnValue.writeList vs) (fun c vs bs => values c vs bs) vs
  | [], _ => by
    rw [AnnValue.writeList]
    exact GoodW.pure _ (fun _ => by simp [values])
  | v :: vs, h => by
    rw [ExpressibleAll] at h
    rw [AnnValue.writeList]
    refine Writes.weaken (x := (v, vs)) (Writes.cons (Writes.on (p := Prod.fst) (writes_value env v h.1))
      (Writes.cons (Writes.on (p := Prod.snd) (writes_values env vs h.2)) (Writes.nil _ _))) ?_
    rintro P bs ⟨b, b', rfl, h1, b1, b2, rfl, h2, rfl⟩
    rw [values]
    exact ⟨b, b1, by simp, h1, h2⟩

theorem writes_pairs (env : WEnv) : (es : List (Bytes × AnnValue)) → ExpressiblePairs true es →
    Writes env (AnnValue.writeElems es) (fun c es bs => pairs c es bs) es
  | [], _ => by
    rw [AnnValue.writeElems]
    exact GoodW.pure _ (fun _ => by simp [pairs])
  | (k, v) :: es, h => by
    rw [ExpressiblePairs] at h
    rw [AnnValue.writeElems]
    refine Writes.weaken (x := ((k, v), es)) (Writes.cons
      (Writes.on (p := fun x : (Bytes × AnnValue) × List (Bytes × AnnValue) => x.1.1) (writes_utf8 env k))
      (Writes.cons
      (Writes.on (p := fun x : (Bytes × AnnValue) × List (Bytes × AnnValue) => x.1.2)
        (writes_value env v h.1))
      (Writes.cons (Writes.on (p := Prod.snd) (writes_pairs env es h.2)) (Writes.nil _ _)))) ?_
    rintro P bs ⟨b, b', rfl, h1, b1, b2, rfl, h2, b3, b4, rfl, h3, rfl⟩
    rw [pairs]
    exact ⟨b, b1, b3, by simp, h1, h2, h3⟩

end

theorem writes_elems (env : WEnv) {es : Elems} (hl : es.length < 65536)
    (h : ExpressiblePairs true es) : Writes env (Elems.write es) elems es := by
  refine Writes.weaken (x := es) (Writes.cons
    (Writes.weaken (g := fun _ (x : Elems) bs => bs = U2 x.length) (writes_u2 env _) ?_)
    (Writes.cons (writes_pairs env es h) (Writes.nil _ _))) ?_
  · rintro P bs rfl
    simp only [UInt16.toNat_ofNat']
    rw [Nat.mod_eq_of_lt (by omega)]
  · rintro P bs ⟨b, b', rfl, rfl, b1, b2, rfl, h1, rfl⟩
    exact ⟨hl, b1, by simp, h1⟩

theorem writes_annotation (env : WEnv) {a : Annotation} (ht : IsDescriptor a.ty)
    (hl : a.vals.length < 65536) (h : ExpressiblePairs true a.vals) :
    Writes env a.write annotation a :=
  Writes.cons (Writes.on (writes_type env ht)) (Writes.cons (Writes.on (writes_elems env hl h))
    (Writes.nil _ _))

/-! ## Reading -/

theorem put_new {m : Elems} {k : Bytes} (v : AnnValue) (h : k ∉ m.map Prod.fst) :
    Elems.put m k v = m ++ [(k, v)] := by
  induction m with
  | nil => rfl
  | cons p m ih =>
    obtain ⟨k', v'⟩ := p
    simp only [List.map_cons, List.mem_cons, not_or] at h
    rw [Elems.put, if_neg (fun e => h.1 e.symm), ih h.2]
    rfl

theorem foldl_put (es m : Elems) (h : ((m ++ es).map Prod.fst).Nodup) :
    es.foldl (fun (m : Elems) p => m.put p.1 p.2) m = m ++ es := by
  induction es generalizing m with
  | nil => simp
  | cons p es ih =>
    rw [List.foldl_cons, put_new, ih]
    · simp
    · simpa using h
    · simp only [List.map_append, List.map_cons, List.nodup_append, List.mem_cons] at h
      intro hp
      exact h.2.2 p.1 hp p.1 (.inl rfl) rfl

theorem reads_integer {c : Ctx} {n : Int} {bs : Bytes} (h : Fmt.integer c n bs)
    (cs : Option (List Catch)) : ∃ x : Int32, x.toInt = n ∧ PReads (rIdx Pool.int) ⟨c.pool, cs⟩ bs x := by
  obtain ⟨i, ⟨x, h1, rfl⟩, rfl⟩ := h
  exact ⟨x, rfl, PReads.idx (by simp [Pool.int, h1])⟩

theorem reads_intIn {c : Ctx} {n : Int} {bs : Bytes} (h : Fmt.integer c n bs)
    (cs : Option (List Catch)) {lo hi : Int} (h1 : lo ≤ n) (h2 : n ≤ hi) {f : Int32 → AnnValue}
    {v : AnnValue} (hf : ∀ x : Int32, x.toInt = n → f x = v) :
    PReads (rIntIn lo hi f) ⟨c.pool, cs⟩ bs v := by
  obtain ⟨x, rfl, hx⟩ := reads_integer h cs
  refine (PReads.bind (y := v) hx (b2 := []) ?_).cast (by simp)
  rw [if_pos ⟨h1, h2⟩, hf x rfl]
  exact Rd.reads_pure _ _

theorem parse_void : ∀ t, JType.parseType [0x56] ≠ .ok t := by
  intro t h
  have e := Wtf8.codepoints_encode [0x56] (by decide)
  rw [show encodeCps [0x56] = [0x56] from rfl] at e
  rw [JType.parseType, e] at h
  cases h

theorem reads_classText {c : Ctx} {t : JType} {bs : Bytes} (h : Fmt.descr c t bs)
    (cs : Option (List Catch)) : PReads rClassText ⟨c.pool, cs⟩ bs (some t) := by
  obtain ⟨i, ⟨h1, ds, h2, h3⟩, rfl⟩ := h
  refine (PReads.bind (PReads.idx (wtf8_of h3)) (b2 := []) ?_).cast (by simp)
  rw [if_neg]
  · exact PReads.map (PReads.ofRes (parse_desc h1 h2))
  · intro e
    exact parse_void t (e ▸ parse_desc h1 h2)

theorem reads_void {c : Ctx} {bs : Bytes} (h : Fmt.utf8 c [0x56] bs) (cs : Option (List Catch)) :
    PReads rClassText ⟨c.pool, cs⟩ bs none :=
  (PReads.bind (reads_utf8 h cs) (b2 := []) (by rw [if_pos rfl]; exact Rd.reads_pure _ _)).cast (by simp)

theorem toInt8_eq {x : Int32} {y : Int8} (h : x.toInt = y.toInt) : x.toInt8 = y := by
  apply Int8.toInt_inj.mp
  rw [Int32.toInt_toInt8, h, ← Int8.toInt_ofInt, Int8.ofInt_toInt]

theorem toInt16_eq {x : Int32} {y : Int16} (h : x.toInt = y.toInt) : x.toInt16 = y := by
  apply Int16.toInt_inj.mp
  rw [Int32.toInt_toInt16, h, ← Int16.toInt_ofInt, Int16.ofInt_toInt]

mutual

theorem reads_value {c : Ctx} (cs : Option (List Catch)) : (v : AnnValue) → {bs : Bytes} →
    value c v bs → Distinct v → ∀ n, bs.length < n → PReads (AnnValue.readF n) ⟨c.pool, cs⟩ bs v
  | _, _, _, _, 0, hn => absurd hn (by omega)
  | .byte x, bs, h, _, n + 1, hn => by
    rw [value] at h
    obtain ⟨b, rfl, h⟩ := h
    refine PReads.bind (reads_u1' _ (by decide)) ?_
    exact reads_intIn h cs (Int8.le_toInt x) (Int8.toInt_le x) (fun y hy => by rw [toInt8_eq hy])
  | .char x, bs, h, _, n + 1, hn => by
    rw [value] at h
    obtain ⟨b, rfl, h⟩ := h
    refine PReads.bind (reads_u1' _ (by decide)) ?_
    have := x.toNat_lt
    refine reads_intIn h cs (by omega) (by omega) (fun y hy => ?_)
    rw [hy]
    simp
  | .double x, bs, h, _, n + 1, hn => by
    rw [value] at h
    obtain ⟨b, rfl, i, h, rfl⟩ := h
    refine PReads.bind (reads_u1' _ (by decide)) ?_
    exact PReads.map (PReads.idx (by simp [Pool.double, h]))
  | .float x, bs, h, _, n + 1, hn => by
    rw [value] at h
    obtain ⟨b, rfl, i, h, rfl⟩ := h
    refine PReads.bind (reads_u1' _ (by decide)) ?_
    exact PReads.map (PReads.idx (by simp [Pool.float, h]))
  | .int x, bs, h, _, n + 1, hn => by
    rw [value] at h
    obtain ⟨b, rfl, h⟩ := h
    refine PReads.bind (reads_u1' _ (by decide)) ?_
    obtain ⟨y, hy, h⟩ := reads_integer h cs
    cases Int32.toInt_inj.mp hy
    exact PReads.map h
  | .long x, bs, h, _, n + 1, hn => by
    rw [value] at h
    obtain ⟨b, rfl, i, h, rfl⟩ := h
    refine PReads.bind (reads_u1' _ (by decide)) ?_
    exact PReads.map (PReads.idx (by simp [Pool.long, h]))
  | .short x, bs, h, _, n + 1, hn => by
    rw [value] at h
    obtain ⟨b, rfl, h⟩ := h
    refine PReads.bind (reads_u1' _ (by decide)) ?_
    exact reads_intIn h cs (Int16.le_toInt x) (Int16.toInt_le x) (fun y hy => by rw [toInt16_eq hy])
  | .boolean x, bs, h, _, n + 1, hn => by
    rw [value] at h
    obtain ⟨b, rfl, h⟩ := h
    refine PReads.bind (reads_u1' _ (by decide)) ?_
    refine reads_intIn h cs (by cases x <;> simp) (by cases x <;> simp) (fun y hy => ?_)
    have : y = if x then 1 else 0 := by
      apply Int32.toInt_inj.mp
      rw [hy]
      cases x <;> rfl
    rw [this]
    cases x <;> rfl
  | .string s, bs, h, _, n + 1, hn => by
    rw [value] at h
    obtain ⟨b, rfl, h⟩ := h
    refine PReads.bind (reads_u1' _ (by decide)) ?_
    exact PReads.map (reads_utf8 h cs)
  | .enum t s, bs, h, _, n + 1, hn => by
    rw [value] at h
    obtain ⟨b, rfl, b1, b2, rfl, h1, h2⟩ := h
    refine PReads.bind (reads_u1' _ (by decide)) ?_
    exact PReads.ap (PReads.map (reads_descr h1 cs)) (reads_utf8 h2 cs)
  | .cls none, bs, h, _, n + 1, hn => by
    rw [value] at h
    obtain ⟨b, rfl, h⟩ := h
    refine PReads.bind (reads_u1' _ (by decide)) ?_
    exact PReads.map (reads_void h cs)
  | .cls (some t), bs, h, _, n + 1, hn => by
    rw [value] at h
    obtain ⟨b, rfl, h⟩ := h
    refine PReads.bind (reads_u1' _ (by decide)) ?_
    exact PReads.map (reads_classText h cs)
  | .annotation t es, bs, h, hd, n + 1, hn => by
    rw [value] at h
    rw [Distinct] at hd
    obtain ⟨b, b', rfl, h1, h2, h3⟩ := h
    simp only [List.append_assoc]
    refine PReads.bind (reads_u1' _ (by decide)) ?_
    refine PReads.ap (PReads.map (reads_descr h1 cs)) ?_
    have hn' : b'.length < n := by
      simp [U1, U2, List.length_append] at hn
      omega
    have h4 := reads_pairs cs es h3 hd.2 n hn'
    have : u16.bits (UInt16.ofNat es.length) = es.length := by simp [u16]; omega
    have h5 : PReads (rVec u16 (Rd.bind rUtf8 fun k => Rd.map (fun v => (k, v)) (AnnValue.readF n)))
        ⟨c.pool, cs⟩ (U2 es.length ++ b') es := PReads.bind (reads_u2' _ h2) (by rw [this]; exact h4)
    have h6 := PReads.map (f := fun ps => ps.foldl (fun (m : Elems) p => m.put p.1 p.2) []) h5
    rw [foldl_put es [] (by simpa using hd.1)] at h6
    exact h6
  | .array vs, bs, h, hd, n + 1, hn => by
    rw [value] at h
    rw [Distinct] at hd
    obtain ⟨b, rfl, h1, h2⟩ := h
    simp only [List.append_assoc]
    refine PReads.bind (reads_u1' _ (by decide)) ?_
    have hn' : b.length < n := by
      simp [U1, U2, List.length_append] at hn
      omega
    have h4 := reads_values cs vs h2 hd n hn'
    have : u16.bits (UInt16.ofNat vs.length) = vs.length := by simp [u16]; omega
    have h5 : PReads (rVec u16 (AnnValue.readF n)) ⟨c.pool, cs⟩ (U2 vs.length ++ b) vs :=
      PReads.bind (reads_u2' _ h1) (by rw [this]; exact h4)
    exact PReads.map h5

theorem reads_values {c : Ctx} (cs : Option (List Catch)) : (vs : List AnnValue) → {bs : Bytes} →
    values c vs bs → DistinctAll vs → ∀ n, bs.length < n →
      PReads (Rd.replicate vs.length (AnnValue.readF n)) ⟨c.pool, cs⟩ bs vs
  | [], bs, h, _, n, _ => by
    rw [values] at h
    subst h
    exact Rd.reads_pure _ _
  | v :: vs, bs, h, hd, n, hn => by
    rw [values] at h
    rw [DistinctAll] at hd
    obtain ⟨b, b', rfl, h1, h2⟩ := h
    rw [List.length_append] at hn
    exact PReads.bind (reads_value cs v h1 hd.1 n (by omega))
      (PReads.map (f := fun as => v :: as) (reads_values cs vs h2 hd.2 n (by omega)))

theorem reads_pairs {c : Ctx} (cs : Option (List Catch)) : (es : List (Bytes × AnnValue)) →
    {bs : Bytes} → pairs c es bs → DistinctPairs es → ∀ n, bs.length < n →
      PReads (Rd.replicate es.length (Rd.bind rUtf8 fun k => Rd.map (fun v => (k, v))
        (AnnValue.readF n))) ⟨c.pool, cs⟩ bs es
  | [], bs, h, _, n, _ => by
    rw [pairs] at h
    subst h
    exact Rd.reads_pure _ _
  | (k, v) :: es, bs, h, hd, n, hn => by
    rw [pairs] at h
    rw [DistinctPairs] at hd
    obtain ⟨b, b', b'', rfl, h1, h2, h3⟩ := h
    rw [List.length_append, List.length_append] at hn
    refine PReads.bind (a := (k, v)) (PReads.bind (reads_utf8 h1 cs) (PReads.map (f := fun v => (k, v))
      (reads_value cs v h2 hd.1 n (by omega)))) ?_
    exact PReads.map (f := fun as => (k, v) :: as) (reads_pairs cs es h3 hd.2 n (by omega))

end

theorem reads_annValue {c : Ctx} (cs : Option (List Catch)) {v : AnnValue} {bs : Bytes}
    (h : value c v bs) (hd : Distinct v) : PReads AnnValue.read ⟨c.pool, cs⟩ bs v := by
  intro st rest
  exact reads_value cs v h hd _ (by simp; omega) st rest

/-! ## The fuel -/

/-- A reader never lengthens its input. -/
def Shrinks {α : Type} (r : Rd α) : Prop :=
  ∀ env st bs a st' rest, r env st bs = .ok (a, st', rest) → rest.length ≤ bs.length

/-- Two readers agree on inputs shorter than `L`. -/
def Same {α : Type} (L : Nat) (r r' : Rd α) : Prop :=
  ∀ env st (bs : Bytes), bs.length < L → r env st bs = r' env st bs

theorem Rd.bind_ok {α β : Type} {x : Rd α} {f : α → Rd β} {env : REnv} {st : RSt} {bs : Bytes}
    {b : β} {st' : RSt} {rest : Bytes} (h : Rd.bind x f env st bs = .ok (b, st', rest)) :
    ∃ a st1 bs1, x env st bs = .ok (a, st1, bs1) ∧ f a env st1 bs1 = .ok (b, st', rest) := by
  unfold Rd.bind at h
  split at h
  · rename_i a st1 bs1 hx
    exact ⟨a, st1, bs1, hx, h⟩
  · cases h

theorem Shrinks.bind {α β : Type} {x : Rd α} {f : α → Rd β} (hx : Shrinks x) (hf : ∀ a, Shrinks (f a)) :
    Shrinks (Rd.bind x f) := by
  intro env st bs b st' rest h
  obtain ⟨a, st1, bs1, h1, h2⟩ := Rd.bind_ok h
  exact Nat.le_trans (hf a _ _ _ _ _ _ h2) (hx _ _ _ _ _ _ h1)

theorem Shrinks.pure {α : Type} (a : α) : Shrinks (Rd.pure a) := by
  intro env st bs b st' rest h
  cases h
  exact Nat.le_refl _

theorem Shrinks.fail {α : Type} (e : Err) : Shrinks (Rd.fail e : Rd α) := by
  intro env st bs b st' rest h
  cases h

theorem Shrinks.map {α β : Type} {x : Rd α} {f : α → β} (hx : Shrinks x) : Shrinks (Rd.map f x) :=
  hx.bind (fun _ => .pure _)

theorem Shrinks.ap {α β : Type} {g : Rd (α → β)} {x : Rd α} (hg : Shrinks g) (hx : Shrinks x) :
    Shrinks (Rd.ap g x) := hg.bind (fun _ => hx.bind (fun _ => .pure _))

theorem Shrinks.replicate {α : Type} {r : Rd α} (h : Shrinks r) : ∀ n, Shrinks (Rd.replicate n r)
  | 0 => .pure _
  | n + 1 => h.bind (fun _ => (Shrinks.replicate h n).bind (fun _ => .pure _))

theorem Shrinks.lookup {α : Type} (f : Pool → UInt16 → Option α) (i : UInt16) :
    Shrinks (rLookup f i) := by
  intro env st bs b st' rest h
  unfold rLookup at h
  split at h <;> cases h
  exact Nat.le_refl _

theorem Shrinks.ofRes {α : Type} (r : Res α) : Shrinks (Rd.ofRes r) := by
  intro env st bs b st' rest h
  unfold Rd.ofRes at h
  split at h <;> cases h
  exact Nat.le_refl _

theorem rNum_ok {α : Type} {c : NumCodec α} {env : REnv} {st : RSt} {bs : Bytes} {a : α} {st' : RSt}
    {rest : Bytes} (h : rNum c env st bs = .ok (a, st', rest)) :
    st' = st ∧ c.read bs = .ok (a, rest) := by
  unfold rNum Rd.lift at h
  split at h
  · rename_i h1
    cases h
    exact ⟨rfl, h1⟩
  · cases h

theorem NumCodec.read_length {α : Type} {c : NumCodec α} {bs : Bytes} {a : α} {rest : Bytes}
    (h : c.read bs = .ok (a, rest)) : bs.length = c.size + rest.length := by
  unfold NumCodec.read readExact at h
  split at h
  · rename_i h1
    split at h1 <;> cases h1
    cases h
    simp
    omega
  · cases h

theorem Shrinks.num {α : Type} (c : NumCodec α) : Shrinks (rNum c) := by
  intro env st bs b st' rest h
  have := NumCodec.read_length (rNum_ok h).2
  omega

theorem Shrinks.vec {ℓ α : Type} {l : NumCodec ℓ} {r : Rd α} (h : Shrinks r) : Shrinks (rVec l r) :=
  (Shrinks.num l).bind (fun _ => h.replicate _)

theorem Shrinks.idx {α : Type} (f : Pool → UInt16 → Option α) : Shrinks (rIdx f) :=
  (Shrinks.num _).bind (fun _ => .lookup _ _)

theorem Shrinks.utf8 : Shrinks rUtf8 := .idx _

theorem Shrinks.type : Shrinks rType := Shrinks.utf8.bind (fun _ => .ofRes _)

theorem Shrinks.intIn (lo hi : Int) (f : Int32 → AnnValue) : Shrinks (rIntIn lo hi f) := by
  refine (Shrinks.idx _).bind (fun x => ?_)
  split
  · exact .pure _
  · exact .fail _

theorem Shrinks.classText : Shrinks rClassText := by
  refine Shrinks.utf8.bind (fun s => ?_)
  split
  · exact .pure _
  · exact .map (.ofRes _)

theorem Shrinks.elemsWith {r : Rd AnnValue} (h : Shrinks r) : Shrinks (Elems.readWith r) :=
  .map (.vec (Shrinks.utf8.bind (fun _ => h.map)))

theorem Shrinks.ite {α : Type} {p : Prop} [Decidable p] {r r' : Rd α} (h : Shrinks r)
    (h' : Shrinks r') : Shrinks (if p then r else r') := by
  split
  · exact h
  · exact h'

theorem Shrinks.annValue : ∀ n, Shrinks (AnnValue.readF n)
  | 0 => .fail _
  | n + 1 => by
    refine (Shrinks.num _).bind (fun tag => ?_)
    have ih := Shrinks.annValue n
    exact .ite (.intIn _ _ _) <| .ite (.intIn _ _ _) <| .ite (.map (.idx _)) <| .ite (.map (.idx _)) <|
      .ite (.map (.idx _)) <| .ite (.map (.idx _)) <| .ite (.intIn _ _ _) <| .ite (.intIn _ _ _) <|
      .ite (.map .utf8) <| .ite (.ap (.map .type) .utf8) <| .ite (.map .classText) <|
      .ite (.ap (.map .type) (.elemsWith ih)) <| .ite (.map (.vec ih)) (.fail _)

theorem Same.refl {α : Type} (L : Nat) (r : Rd α) : Same L r r := fun _ _ _ _ => rfl

theorem Same.bind {α β : Type} {L : Nat} {x x' : Rd α} {f f' : α → Rd β} (hx : Same L x x')
    (hs : Shrinks x) (hf : ∀ a, Same L (f a) (f' a)) : Same L (Rd.bind x f) (Rd.bind x' f') := by
  intro env st bs hl
  unfold Rd.bind
  rw [← hx env st bs hl]
  rcases h : x env st bs with _ | ⟨a, st', rest⟩
  · rfl
  · exact hf a env st' rest (Nat.lt_of_le_of_lt (hs _ _ _ _ _ _ h) hl)

theorem Same.ite {α : Type} {L : Nat} {p : Prop} [Decidable p] {r r' s s' : Rd α} (h : Same L r r')
    (h' : Same L s s') : Same L (if p then r else s) (if p then r' else s') := by
  split
  · exact h
  · exact h'

theorem Same.replicate {α : Type} {L : Nat} {r r' : Rd α} (h : Same L r r') (hs : Shrinks r) :
    ∀ n, Same L (Rd.replicate n r) (Rd.replicate n r')
  | 0 => .refl _ _
  | n + 1 => h.bind hs (fun _ => (Same.replicate h hs n).bind (hs.replicate n) (fun _ => .refl _ _))

theorem Same.vec {ℓ α : Type} {L : Nat} {l : NumCodec ℓ} {r r' : Rd α} (h : Same L r r')
    (hs : Shrinks r) : Same L (rVec l r) (rVec l r') :=
  (Same.refl _ _).bind (.num _) (fun _ => h.replicate hs _)

theorem Same.elemsWith {L : Nat} {r r' : Rd AnnValue} (h : Same L r r') (hs : Shrinks r) :
    Same L (Elems.readWith r) (Elems.readWith r') := by
  refine (Same.vec ?_ ?_).bind (.vec ?_) (fun _ => .refl _ _)
  · exact (Same.refl _ _).bind .utf8 (fun _ => h.bind hs (fun _ => .refl _ _))
  · exact Shrinks.utf8.bind (fun _ => hs.map)
  · exact Shrinks.utf8.bind (fun _ => hs.map)

/-- Every level of nesting takes a byte. -/
theorem readF_same : ∀ n m, Same (min n m) (AnnValue.readF n) (AnnValue.readF m)
  | 0, _ => fun _ _ _ h => absurd h (by omega)
  | _ + 1, 0 => fun _ _ _ h => absurd h (by omega)
  | n + 1, m + 1 => by
    intro env st bs hl
    have ih := readF_same n m
    have hs := Shrinks.annValue n
    simp only [AnnValue.readF, Rd.bind]
    rcases h : rNum u8 env st bs with _ | ⟨tag, st', rest⟩
    · rfl
    · have hr : rest.length < min n m := by
        have := NumCodec.read_length (rNum_ok h).2
        simp only [show u8.size = 1 from rfl] at this
        omega
      refine Same.ite (.refl _ _) (.ite (.refl _ _) (.ite (.refl _ _) (.ite (.refl _ _)
        (.ite (.refl _ _) (.ite (.refl _ _) (.ite (.refl _ _) (.ite (.refl _ _) (.ite (.refl _ _)
        (.ite (.refl _ _) (.ite (.refl _ _) (.ite ?_ (.ite ?_ (.refl _ _))))))))))))) env st' rest hr
      · exact (Same.refl _ _).bind (.map .type) (fun _ => (ih.elemsWith hs).bind (.elemsWith hs)
          (fun _ => .refl _ _))
      · exact (ih.vec hs).bind (.vec hs) (fun _ => .refl _ _)

/-- Pairs of which some may have the same name. -/
theorem reads_allElems {c : Ctx} (cs : Option (List Catch)) {es : Elems} {bs : Bytes} (h : elems c es bs)
    (hd : DistinctPairs es) :
    PReads Elems.read ⟨c.pool, cs⟩ bs (es.foldl (fun (m : Elems) p => m.put p.1 p.2) []) := by
  intro st rest
  obtain ⟨hl, b, rfl, h1⟩ := h
  have e : Elems.read ⟨c.pool, cs⟩ st (U2 es.length ++ b ++ rest) =
      Elems.readWith (AnnValue.readF ((U2 es.length ++ b ++ rest).length + 1)) ⟨c.pool, cs⟩ st
        (U2 es.length ++ b ++ rest) := by
    refine Same.elemsWith (L := (U2 es.length ++ b ++ rest).length + 1) ?_ ?_ _ _ _ (by omega)
    · intro env st bs hbs
      exact readF_same _ _ _ _ _ (by omega)
    · intro env st bs a st' r hr
      exact Shrinks.annValue _ _ _ _ _ _ _ hr
  rw [e]
  have hn : b.length < (U2 es.length ++ b ++ rest).length + 1 := by
    simp
    omega
  have h4 := reads_pairs cs es h1 hd _ hn
  have : u16.bits (UInt16.ofNat es.length) = es.length := by simp [u16]; omega
  have h5 : PReads (rVec u16 (Rd.bind rUtf8 fun k => Rd.map (fun v => (k, v))
      (AnnValue.readF ((U2 es.length ++ b ++ rest).length + 1))))
      ⟨c.pool, cs⟩ (U2 es.length ++ b) es := PReads.bind (reads_u2' _ hl) (by rw [this]; exact h4)
  exact PReads.map (f := fun ps => ps.foldl (fun (m : Elems) p => m.put p.1 p.2) []) h5 st rest

theorem reads_elems {c : Ctx} (cs : Option (List Catch)) {es : Elems} {bs : Bytes} (h : elems c es bs)
    (hd : Keyed es) : PReads Elems.read ⟨c.pool, cs⟩ bs es := by
  have h6 := reads_allElems cs h hd.2
  rw [foldl_put es [] (by simpa using hd.1)] at h6
  exact h6

theorem lookup_put (k : Bytes) (v : AnnValue) (j : Bytes) : ∀ m : Elems,
    (m.put k v).lookup j = if j = k then some v else m.lookup j
  | [] => by
    rw [Elems.put, List.lookup_cons]
    by_cases h : j = k
    · simp [h]
    · rw [if_neg h, beq_eq_false_iff_ne.mpr h]
  | (k', v') :: m => by
    have ih := lookup_put k v j m
    rw [Elems.put]
    by_cases e : k' = k
    · subst e
      rw [if_pos rfl, List.lookup_cons, List.lookup_cons]
      by_cases h : j = k'
      · simp [h]
      · rw [if_neg h, beq_eq_false_iff_ne.mpr h]
    · rw [if_neg e, List.lookup_cons, List.lookup_cons, ih]
      by_cases h : j = k'
      · subst h
        simp [e]
      · rw [beq_eq_false_iff_ne.mpr h]

theorem lookup_last (j : Bytes) : ∀ (ps : List (Bytes × AnnValue)) (m : Elems),
    (ps.foldl (fun (m : Elems) p => m.put p.1 p.2) m).lookup j = (ps.reverse.lookup j).or (m.lookup j)
  | [], m => rfl
  | p :: ps, m => by
    rw [List.foldl_cons, lookup_last j ps, lookup_put, List.reverse_cons, List.lookup_append]
    rcases ps.reverse.lookup j with _ | v
    · simp only [Option.none_or]
      rw [List.lookup_cons]
      by_cases h : j = p.1
      · simp [h]
      · rw [if_neg h, beq_eq_false_iff_ne.mpr h]
        rfl
    · rfl


theorem reads_annotation {c : Ctx} (cs : Option (List Catch)) {a : Annotation} {bs : Bytes}
    (h : annotation c a bs) (hd : Keyed a.vals) : PReads Annotation.read ⟨c.pool, cs⟩ bs a := by
  obtain ⟨b, b', rfl, h1, b1, b2, rfl, h2, rfl⟩ := h
  exact (PReads.ap (PReads.map (f := Annotation.mk) (reads_descr h1 cs)) (reads_elems cs h2 hd)).cast
    (by simp)

/-! ## Type annotations -/

theorem writes_pathStep (env : WEnv) (x : PathStep) : Writes env x.write pathStep x := by
  cases x with
  | array i => exact writes_tagged 0 (writes_u1 env i)
  | nested i => exact writes_tagged 1 (writes_u1 env i)
  | bound i => exact writes_tagged 2 (writes_u1 env i)
  | arg i => exact writes_tagged 3 (writes_u1 env i)

theorem reads_byte {c : Ctx} {x : UInt8} {bs : Bytes} (h : Fmt.byte c x bs) (cs : Option (List Catch)) :
    PReads (rNum u8) ⟨c.pool, cs⟩ bs x := by
  cases h
  exact reads_u1 _ x

theorem reads_word {c : Ctx} {x : UInt16} {bs : Bytes} (h : Fmt.word c x bs)
    (cs : Option (List Catch)) : PReads (rNum u16) ⟨c.pool, cs⟩ bs x := by
  cases h
  exact reads_u2 _ x

theorem reads_pathStep {c : Ctx} (cs : Option (List Catch)) {x : PathStep} {bs : Bytes}
    (h : pathStep c x bs) : PReads PathStep.read ⟨c.pool, cs⟩ bs x := by
  cases x <;> obtain ⟨b, rfl, h⟩ := h <;> refine PReads.bind (reads_u1' _ (by decide)) ?_ <;>
    exact PReads.map (reads_byte h cs)

theorem writes_classTarget (env : WEnv) (x : ClassTarget) : Writes env x.write classTarget x := by
  cases x with
  | typeParam i => exact writes_tagged 0 (writes_u1 env i)
  | supertype i => exact writes_tagged 0x10 (writes_u2 env i)
  | bound i j => exact writes_tagged2 0x11 (writes_u1 env i) (writes_u1 env j)

theorem reads_classTarget {c : Ctx} (cs : Option (List Catch)) {x : ClassTarget} {bs : Bytes}
    (h : classTarget c x bs) : PReads ClassTarget.read ⟨c.pool, cs⟩ bs x := by
  cases x with
  | typeParam i =>
    obtain ⟨b, rfl, h⟩ := h
    exact PReads.bind (reads_u1' _ (by decide)) (PReads.map (reads_byte h cs))
  | supertype i =>
    obtain ⟨b, rfl, h⟩ := h
    exact PReads.bind (reads_u1' _ (by decide)) (PReads.map (reads_word h cs))
  | bound i j =>
    obtain ⟨b, rfl, b1, b2, rfl, h1, h2⟩ := h
    exact PReads.bind (reads_u1' _ (by decide))
      (PReads.ap (PReads.map (reads_byte h1 cs)) (reads_byte h2 cs))

theorem writes_methodTarget (env : WEnv) (x : MethodTarget) : Writes env x.write methodTarget x := by
  cases x with
  | typeParam i => exact writes_tagged 1 (writes_u1 env i)
  | bound i j => exact writes_tagged2 0x12 (writes_u1 env i) (writes_u1 env j)
  | ret => exact writes_tagged0 env 0x14
  | receiver => exact writes_tagged0 env 0x15
  | param i => exact writes_tagged 0x16 (writes_u1 env i)
  | throws i => exact writes_tagged 0x17 (writes_u2 env i)

theorem reads_methodTarget {c : Ctx} (cs : Option (List Catch)) {x : MethodTarget} {bs : Bytes}
    (h : methodTarget c x bs) : PReads MethodTarget.read ⟨c.pool, cs⟩ bs x := by
  cases x with
  | typeParam i =>
    obtain ⟨b, rfl, h⟩ := h
    exact PReads.bind (reads_u1' _ (by decide)) (PReads.map (reads_byte h cs))
  | bound i j =>
    obtain ⟨b, rfl, b1, b2, rfl, h1, h2⟩ := h
    exact PReads.bind (reads_u1' _ (by decide))
      (PReads.ap (PReads.map (reads_byte h1 cs)) (reads_byte h2 cs))
  | ret =>
    obtain ⟨b, rfl, rfl⟩ := h
    exact PReads.bind (reads_u1' _ (by decide)) (Rd.reads_pure _ _)
  | receiver =>
    obtain ⟨b, rfl, rfl⟩ := h
    exact PReads.bind (reads_u1' _ (by decide)) (Rd.reads_pure _ _)
  | param i =>
    obtain ⟨b, rfl, h⟩ := h
    exact PReads.bind (reads_u1' _ (by decide)) (PReads.map (reads_byte h cs))
  | throws i =>
    obtain ⟨b, rfl, h⟩ := h
    exact PReads.bind (reads_u1' _ (by decide)) (PReads.map (reads_word h cs))

theorem writes_fieldTarget (env : WEnv) (x : FieldTarget) : Writes env x.write fieldTarget x := by
  cases x
  exact writes_tagged0 env 0x13

theorem reads_fieldTarget {c : Ctx} (cs : Option (List Catch)) {x : FieldTarget} {bs : Bytes}
    (h : fieldTarget c x bs) : PReads FieldTarget.read ⟨c.pool, cs⟩ bs x := by
  cases x
  obtain ⟨b, rfl, rfl⟩ := h
  exact PReads.bind (reads_u1' _ (by decide)) (Rd.reads_pure _ _)

theorem writes_typeAnnotation {T : Type} {env : WEnv} {w : T → Ins Bytes} {f : Fmt T}
    {a : TypeAnnotation T} (hw : Writes env (w a.target) f a.target) (h : TypeAnnOk a) :
    Writes env (a.write w) (typeAnnotation f) a :=
  Writes.cons (Writes.on hw) (Writes.cons (Writes.on (Writes.vec1 fun x _ => writes_pathStep env x))
    (Writes.cons (Writes.on (writes_type env h.ty)) (Writes.cons
    (Writes.on (writes_elems env h.len h.vals)) (Writes.nil _ _))))

theorem reads_typeAnnotation {T : Type} {r : Rd T} {f : Fmt T} {c : Ctx} (cs : Option (List Catch))
    (hr : ∀ x bs, f c x bs → PReads r ⟨c.pool, cs⟩ bs x) {a : TypeAnnotation T} {bs : Bytes}
    (h : typeAnnotation f c a bs) (hd : Keyed a.vals) :
    PReads (TypeAnnotation.read r) ⟨c.pool, cs⟩ bs a := by
  obtain ⟨b, b', rfl, h1, b1, b2, rfl, h2, b3, b4, rfl, h3, b5, b6, rfl, h4, rfl⟩ := h
  exact (PReads.ap (PReads.ap (PReads.ap (PReads.map (f := TypeAnnotation.mk) (hr _ _ h1))
    (PReads.vec1 (fun x bs h => reads_pathStep cs h) h2)) (reads_descr h3 cs))
    (reads_elems cs h4 hd)).cast (by simp)

/-! ## Type annotations in code -/

theorem writes_localTarget (env : WEnv) (t : LocalVarTarget) :
    Writes env (t.write env) localTarget t := by
  refine GoodW.bind (p := fun _ s => env.label t.start = .ok s) (GoodW.lift (fun _ _ h => h))
    (q := fun s _ bs => ∃ e, env.label t.stop = .ok e ∧ s ≤ e ∧
      bs = U2 s.toNat ++ U2 (e.toNat - s.toNat) ++ U2 t.idx.toNat) (fun s => ?_) ?_
  · refine GoodW.bind (p := fun _ e => env.label t.stop = .ok e) (GoodW.lift (fun _ _ h => h))
      (q := fun e _ bs => s ≤ e ∧ bs = U2 s.toNat ++ U2 (e.toNat - s.toNat) ++ U2 t.idx.toNat)
      (fun e => ?_) ?_
    · split
      · exact GoodW.fail _ _
      · rename_i h
        have h : s ≤ e := by simpa using h
        refine GoodW.pure _ (fun _ => ⟨h, ?_⟩)
        rw [u16_write, u16_write, u16_write, UInt16.toNat_sub_of_le _ _ h]
    · rintro P e bs h1 ⟨h2, h3⟩
      exact ⟨e, h1, h2, h3⟩
  · rintro P s bs h1 ⟨e, h2, h3, h4⟩
    refine ⟨s.toNat, e.toNat, ?_, ?_, UInt16.le_iff_toNat_le.mp h3, e.toNat_lt, h4⟩
    · simp only [WEnv.ctx, h1]
    · simp only [WEnv.ctx, h2]

/-- Targets the writer expresses: the handler of a catch parameter is in the exception table. -/
def CodeTargetOk (env : WEnv) : CodeTarget → Prop
  | .catchParam k => ∃ i, env.catch_ k = .ok (some i)
  | _ => True

theorem writes_catch (env : WEnv) {k : Catch} (h : ∃ i, env.catch_ k = .ok (some i)) :
    Writes env (wCatch env k) catchIndex k := by
  obtain ⟨i, h⟩ := h
  refine GoodW.bind (p := fun _ o => o = some i) (GoodW.lift (fun _ o ho => ?_))
    (q := fun o _ bs => o = some i → bs = U2 i.toNat) (fun o => ?_) ?_
  · rw [h] at ho
    cases ho
    rfl
  · rcases o with _ | j
    · exact GoodW.pure _ (fun _ e => by cases e)
    · exact GoodW.pure _ (fun _ e => by cases e; exact u16_write _)
  · intro P o bs h1 h2
    refine ⟨i.toNat, ?_, i.toNat_lt, h2 h1⟩
    simp only [WEnv.ctx, h]

theorem writes_codeTarget (env : WEnv) (x : CodeTarget) (h : CodeTargetOk env x) :
    Writes env (x.write env) codeTarget x := by
  cases x with
  | localVar ts => exact writes_tagged 0x40 (Writes.vec2 fun t _ => writes_localTarget env t)
  | resourceVar ts => exact writes_tagged 0x41 (Writes.vec2 fun t _ => writes_localTarget env t)
  | catchParam k => exact writes_tagged 0x42 (writes_catch env h)
  | instanceOf l => exact writes_tagged 0x43 (writes_label env l)
  | new l => exact writes_tagged 0x44 (writes_label env l)
  | newRef l => exact writes_tagged 0x45 (writes_label env l)
  | methodRef l => exact writes_tagged 0x46 (writes_label env l)
  | cast l i => exact writes_tagged2 0x47 (writes_label env l) (writes_u1 env i)
  | newArg l i => exact writes_tagged2 0x48 (writes_label env l) (writes_u1 env i)
  | methodArg l i => exact writes_tagged2 0x49 (writes_label env l) (writes_u1 env i)
  | newRefArg l i => exact writes_tagged2 0x4a (writes_label env l) (writes_u1 env i)
  | methodRefArg l i => exact writes_tagged2 0x4b (writes_label env l) (writes_u1 env i)

def offsLocal (c : Ctx) (t : LocalVarTarget) : List UInt32 := c.offs t.start ++ c.offs t.stop

def renLocal (f : Label → Label) (t : LocalVarTarget) : LocalVarTarget := ⟨f t.start, f t.stop, t.idx⟩

theorem reads_localTarget {c : Ctx} (cs : Option (List Catch)) {t : LocalVarTarget} {bs : Bytes}
    (h : localTarget c t bs) : Reads LocalVarTarget.read ⟨c.pool, cs⟩ bs
      (fun n => renLocal (c.ren n) t) (offsLocal c t) [] := by
  obtain ⟨s, e, h1, h2, h3, h4, rfl⟩ := h
  have es : (UInt16.ofNat s).toUInt32 = UInt32.ofNat s := by
    apply UInt32.toNat_inj.mp
    simp
    omega
  have ee : (UInt16.ofNat s).toUInt32 + (UInt16.ofNat (e - s)).toUInt32 = UInt32.ofNat e := by
    apply UInt32.toNat_inj.mp
    simp [UInt32.toNat_add]
    omega
  have hL : Reads (Rd.bind (getLabel (UInt16.ofNat s).toUInt32) fun start =>
      Rd.bind (rNum u16) fun len => Rd.bind (getLabel ((UInt16.ofNat s).toUInt32 + len.toUInt32))
        fun stop => Rd.map (LocalVarTarget.mk start stop) (rNum u16)) ⟨c.pool, cs⟩
      ([] ++ (U2 (e - s) ++ ([] ++ U2 t.idx.toNat)))
      (fun n => LocalVarTarget.mk (n (UInt32.ofNat s)) (n (UInt32.ofNat e)) t.idx)
      ([UInt32.ofNat s] ++ [UInt32.ofNat e]) [] := by
    refine (Reads.bind (w := fun n n' => LocalVarTarget.mk (n (UInt16.ofNat s).toUInt32)
      (n' (UInt32.ofNat e)) t.idx) (o2 := [UInt32.ofNat e]) (p2 := []) (reads_getLabel _ _)
      (fun n => ?_)).cast rfl (by simp only [es]) (by simp only [es]) rfl
    refine PReads.bindR (reads_u2' _ (by omega)) ?_
    rw [ee]
    exact Reads.bind (w := fun n' _ => LocalVarTarget.mk (n (UInt16.ofNat s).toUInt32)
      (n' (UInt32.ofNat e)) t.idx) (reads_getLabel _ _) (fun n' =>
        (PReads.map (f := LocalVarTarget.mk (n (UInt16.ofNat s).toUInt32) (n' (UInt32.ofNat e)))
          (reads_u2 _ t.idx)).reads)
  refine (PReads.bindR (reads_u2' _ (by omega)) hL).cast (by simp) ?_ ?_ rfl
  · funext n
    simp [renLocal, Ctx.ren, h1, h2]
  · simp [offsLocal, Ctx.offs, h1, h2]

def offsTarget (c : Ctx) (x : CodeTarget) : List UInt32 := (targetLabels x).flatMap c.offs

/-- The exception table of the reader holds `g k` where the layout puts `k`. -/
def Handlers (c : Ctx) (cs : List Catch) (g : Catch → Catch) (ks : List Catch) : Prop :=
  ∀ k ∈ ks, ∀ n, c.handler k = some n → cs[n]? = some (g k)

theorem reads_catch {c : Ctx} {cs : List Catch} {g : Catch → Catch} {k : Catch}
    (hg : Handlers c cs g [k]) {bs : Bytes} (h : catchIndex c k bs) :
    PReads rCatch ⟨c.pool, some cs⟩ bs (g k) := by
  obtain ⟨n, h1, h2, rfl⟩ := h
  refine (PReads.bind (y := g k) (reads_u2' _ h2) (b2 := []) ?_).cast (by simp)
  intro st rest
  have : (UInt16.ofNat n).toNat = n := by simp; omega
  simp only [this, hg k (by simp) n h1]
  rfl

theorem reads_labelByte {c : Ctx} (cs : Option (List Catch)) {f : Label → UInt8 → CodeTarget}
    {l : Label} {i : UInt8} {bs : Bytes} (h : Fmt.pair Fmt.label Fmt.byte c (l, i) bs) :
    Reads (Rd.ap (Rd.map f rLabel) (rNum u8)) ⟨c.pool, cs⟩ bs (fun n => f (c.ren n l) i)
      (c.offs l) [] := by
  obtain ⟨b, b', rfl, h1, h2⟩ := h
  exact (Reads.ap (Reads.map (f := f) (reads_fmt_label h1 cs)) (reads_byte h2 cs).reads).cast rfl rfl
    (by simp) rfl

theorem reads_codeTarget {c : Ctx} {cs : List Catch} {g : Catch → Catch} {x : CodeTarget}
    (hg : Handlers c cs g (targetCatches x)) {bs : Bytes} (h : codeTarget c x bs) :
    Reads CodeTarget.read ⟨c.pool, some cs⟩ bs (fun n => renTarget (c.ren n) g x) (offsTarget c x)
      [] := by
  cases x with
  | localVar ts =>
    obtain ⟨b, rfl, h⟩ := h
    refine PReads.bindR (reads_u1' _ (by decide)) ?_
    exact (Reads.map (f := CodeTarget.localVar) (Reads.vec2 (g := fun n => renLocal (c.ren n))
      (offs := offsLocal c) (pend := fun _ => []) h (fun t _ bs h => reads_localTarget _ h))).cast rfl rfl
      (by simp [offsTarget, targetLabels, List.flatMap_assoc]; rfl)
      (by simp)
  | resourceVar ts =>
    obtain ⟨b, rfl, h⟩ := h
    refine PReads.bindR (reads_u1' _ (by decide)) ?_
    exact (Reads.map (f := CodeTarget.resourceVar) (Reads.vec2 (g := fun n => renLocal (c.ren n))
      (offs := offsLocal c) (pend := fun _ => []) h (fun t _ bs h => reads_localTarget _ h))).cast rfl rfl
      (by simp [offsTarget, targetLabels, List.flatMap_assoc]; rfl)
      (by simp)
  | catchParam k =>
    obtain ⟨b, rfl, h⟩ := h
    refine PReads.bindR (reads_u1' _ (by decide)) ?_
    exact (PReads.map (f := CodeTarget.catchParam) (reads_catch hg h)).reads
  | instanceOf l =>
    obtain ⟨b, rfl, h⟩ := h
    refine PReads.bindR (reads_u1' _ (by decide)) ?_
    exact (Reads.map (f := CodeTarget.instanceOf) (reads_fmt_label h _)).cast rfl rfl
      (by simp [offsTarget, targetLabels]) rfl
  | new l =>
    obtain ⟨b, rfl, h⟩ := h
    refine PReads.bindR (reads_u1' _ (by decide)) ?_
    exact (Reads.map (f := CodeTarget.new) (reads_fmt_label h _)).cast rfl rfl
      (by simp [offsTarget, targetLabels]) rfl
  | newRef l =>
    obtain ⟨b, rfl, h⟩ := h
    refine PReads.bindR (reads_u1' _ (by decide)) ?_
    exact (Reads.map (f := CodeTarget.newRef) (reads_fmt_label h _)).cast rfl rfl
      (by simp [offsTarget, targetLabels]) rfl
  | methodRef l =>
    obtain ⟨b, rfl, h⟩ := h
    refine PReads.bindR (reads_u1' _ (by decide)) ?_
    exact (Reads.map (f := CodeTarget.methodRef) (reads_fmt_label h _)).cast rfl rfl
      (by simp [offsTarget, targetLabels]) rfl
  | cast l i =>
    obtain ⟨b, rfl, h⟩ := h
    refine PReads.bindR (reads_u1' _ (by decide)) ?_
    exact (reads_labelByte _ h).cast rfl rfl (by simp [offsTarget, targetLabels]) rfl
  | newArg l i =>
    obtain ⟨b, rfl, h⟩ := h
    refine PReads.bindR (reads_u1' _ (by decide)) ?_
    exact (reads_labelByte _ h).cast rfl rfl (by simp [offsTarget, targetLabels]) rfl
  | methodArg l i =>
    obtain ⟨b, rfl, h⟩ := h
    refine PReads.bindR (reads_u1' _ (by decide)) ?_
    exact (reads_labelByte _ h).cast rfl rfl (by simp [offsTarget, targetLabels]) rfl
  | newRefArg l i =>
    obtain ⟨b, rfl, h⟩ := h
    refine PReads.bindR (reads_u1' _ (by decide)) ?_
    exact (reads_labelByte _ h).cast rfl rfl (by simp [offsTarget, targetLabels]) rfl
  | methodRefArg l i =>
    obtain ⟨b, rfl, h⟩ := h
    refine PReads.bindR (reads_u1' _ (by decide)) ?_
    exact (reads_labelByte _ h).cast rfl rfl (by simp [offsTarget, targetLabels]) rfl

/-- The annotation with its target renamed. -/
def renAnn (f : Label → Label) (g : Catch → Catch) (a : TypeAnnotation CodeTarget) :
    TypeAnnotation CodeTarget := { a with target := renTarget f g a.target }

theorem reads_codeAnnotation {c : Ctx} {cs : List Catch} {g : Catch → Catch}
    {a : TypeAnnotation CodeTarget} (hg : Handlers c cs g (targetCatches a.target)) {bs : Bytes}
    (h : typeAnnotation codeTarget c a bs) (hd : Keyed a.vals) :
    Reads (TypeAnnotation.read CodeTarget.read) ⟨c.pool, some cs⟩ bs (fun n => renAnn (c.ren n) g a)
      (offsTarget c a.target) [] := by
  obtain ⟨b, b', rfl, h1, b1, b2, rfl, h2, b3, b4, rfl, h3, b5, b6, rfl, h4, rfl⟩ := h
  exact (Reads.ap (Reads.ap (Reads.ap (Reads.map (f := TypeAnnotation.mk) (reads_codeTarget hg h1))
    (PReads.vec1 (fun x bs h => reads_pathStep _ h) h2).reads) (reads_descr h3 _).reads)
    (reads_elems _ h4 hd).reads).cast (by simp) rfl (by simp) rfl

end Verif
