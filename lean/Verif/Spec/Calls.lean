import Verif.Model.Source

/-! # How often a source is asked

`Source.Exact` and `Source.Run` once more, with a count of what the source is asked to do. -/

namespace Verif

/-- `Read::read_exact` with the number of calls of `Read::read`, and how many of them were interrupted. -/
inductive Source.ExactIn {σ ε : Type} (src : Source σ ε) : σ → Nat → Bytes → Except (Option ε) Unit → σ → Nat → Nat → Prop
  | full (s : σ) : ExactIn src s 0 [] (.ok ()) s 0 0
  | ended {s s' : σ} {n : Nat} (h : src.read s (n + 1) = (.bytes [], s')) : ExactIn src s (n + 1) [] (.error none) s' 1 0
  | failed {s s' : σ} {n : Nat} {e : ε} (h : src.read s (n + 1) = (.error e, s')) :
    ExactIn src s (n + 1) [] (.error (some e)) s' 1 0
  | again {s s' s'' : σ} {n c i : Nat} {d : Bytes} {r : Except (Option ε) Unit}
    (h : src.read s (n + 1) = (.interrupted, s')) (h' : ExactIn src s' (n + 1) d r s'' c i) :
    ExactIn src s (n + 1) d r s'' (c + 1) (i + 1)
  | some {s s' s'' : σ} {n c i : Nat} {b d : Bytes} {r : Except (Option ε) Unit}
    (h : src.read s (n + 1) = (.bytes b, s')) (hb : b ≠ []) (h' : ExactIn src s' (n + 1 - b.length) d r s'' c i) :
    ExactIn src s (n + 1) (b ++ d) r s'' (c + 1) i

/-- A reader run with a source: how often `read_exact` was called, how often `read`, and how many of these calls were
interrupted. -/
inductive Source.RunIn {σ ε α : Type} (src : Source σ ε) : Pull α → σ → Bytes → Except (Halt ε) α → σ → Nat → Nat → Nat → Prop
  | done (a : α) (s : σ) : RunIn src (.done a) s [] (.ok a) s 0 0 0
  | fail (e : Err) (s : σ) : RunIn src (.fail e) s [] (.error (.refused e)) s 0 0 0
  | next {n q c c' i i' : Nat} {k : Bytes → Pull α} {s s' s'' : σ} {d d' : Bytes} {r : Except (Halt ε) α}
    (h : src.ExactIn s n d (.ok ()) s' c i) (h' : RunIn src (k d) s' d' r s'' q c' i') :
    RunIn src (.need n k) s (d ++ d') r s'' (q + 1) (c + c') (i + i')
  | ended {n c i : Nat} {k : Bytes → Pull α} {s s' : σ} {d : Bytes} (h : src.ExactIn s n d (.error none) s' c i) :
    RunIn src (.need n k) s d (.error .ended) s' 1 c i
  | failed {n c i : Nat} {k : Bytes → Pull α} {s s' : σ} {d : Bytes} {e : ε}
    (h : src.ExactIn s n d (.error (some e)) s' c i) : RunIn src (.need n k) s d (.error (.failed e)) s' 1 c i

/-- Reading has stopped because of the source. -/
def Halt.cut {ε α : Type} : Except (Halt ε) α → Nat
  | .error .ended => 1
  | .error (.failed _) => 1
  | _ => 0

end Verif
