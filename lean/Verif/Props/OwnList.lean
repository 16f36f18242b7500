import Verif.Model.HeaderNodes
import Verif.Props.Options
/-!
# Property C81: DelHeaders and its argument
-/

namespace Dkim
open Spec Nodes

/-- The strings in a list. -/
def Spec.vals (l : List Node) : List Bytes := l.map (·.val)

/-- The nodes of a list are different objects. -/
def Spec.Distinct (l : List Node) : Prop := (l.map (·.addr)).Nodup

theorem next_split (pre : List Node) (n : Node) (post : List Node) (h : Distinct (pre ++ n :: post)) :
    next (pre ++ n :: post) n.addr = .ok post.head? := by
  induction pre with
  | nil => simp [next]
  | cons m pre ih =>
    have h' : (m.addr :: (pre ++ n :: post).map (·.addr)).Nodup := h
    rw [List.nodup_cons] at h'
    rw [List.cons_append, next, if_neg]
    · exact ih h'.2
    · intro e
      exact h'.1 (by rw [e]; simp)

theorem next_gone (l : List Node) (a : Nat) (h : ∀ n ∈ l, n.addr ≠ a) : next l a = .error .ub := by
  induction l with
  | nil => rfl
  | cons m l ih =>
    rw [next, if_neg (h m (by simp))]
    exact ih (fun n hn => h n (by simp [hn]))

/-- C81 (only for a list that is not the object's own, see the witness): `DelHeaders` removes exactly the names listed, touches no
freed node, and agrees with the model used elsewhere. -/
theorem C81_del_headers_partial (hs arg : List Node) (hd : Distinct arg) :
    ∃ r, delHeaders hs (some arg) = .ok r ∧ r = hs.filter (fun n => decide (n.val ∉ vals arg)) ∧
      vals r = removeHeaders (vals hs) (vals arg) := by
  have main : ∀ (post pre : List Node) (hs : List Node) (fuel : Nat), Distinct (pre ++ post) → post.length < fuel →
      delLoop false (pre ++ post) fuel hs post.head? = .ok (hs.filter (fun n => decide (n.val ∉ vals post))) := by
    intro post
    induction post with
    | nil =>
      intro pre hs fuel _ hf
      obtain ⟨f, rfl⟩ : ∃ f, fuel = f + 1 := ⟨fuel - 1, by simp at hf; omega⟩
      rw [List.head?_nil, delLoop]
      rw [List.filter_eq_self.2 (by simp [vals])]
    | cons n post ih =>
      intro pre hs fuel hd hf
      obtain ⟨f, rfl⟩ : ∃ f, fuel = f + 1 := ⟨fuel - 1, by simp at hf; omega⟩
      rw [List.head?_cons, delLoop]
      simp only [Bool.false_eq_true, if_false]
      rw [next_split pre n post hd]
      have := ih (pre ++ [n]) (remove hs n.val) f (by simpa using hd) (by simp at hf; omega)
      rw [List.append_assoc] at this
      refine Eq.trans this ?_
      rw [remove, List.filter_filter]
      congr 1
      congr 1
      funext m
      by_cases h1 : m.val = n.val <;> simp [vals, h1]
  have h := main arg [] hs (arg.length + 1) hd (by omega)
  rw [List.nil_append] at h
  refine ⟨_, h, rfl, ?_⟩
  rw [removeHeaders_eq]
  unfold vals
  rw [List.filter_map]
  rfl

/-- C81 is false of the code: given the object's own list (unless it is empty), the first round frees the node the loop stands on. -/
theorem C81_own_list_witness (n : Node) (hs : List Node) (hd : Distinct (n :: hs)) :
    delHeaders (n :: hs) none = .error .ub := by
  have hd' : (n.addr :: hs.map (·.addr)).Nodup := hd
  rw [List.nodup_cons] at hd'
  rw [delHeaders, List.head?_cons, delLoop]
  simp only [if_true]
  rw [next_gone]
  intro m hm e
  rw [remove, List.mem_filter] at hm
  rcases List.mem_cons.1 hm.1 with rfl | h
  · simp at hm
  · exact hd'.1 (by rw [← e]; exact List.mem_map_of_mem h)

/-- The default list minus two names. -/
example : Distinct [⟨1, b!"cc"⟩, ⟨2, b!"x"⟩] ∧
    (match delHeaders [⟨10, b!"from"⟩, ⟨11, b!"cc"⟩, ⟨12, b!"to"⟩, ⟨13, b!"cc"⟩] (some [⟨1, b!"cc"⟩, ⟨2, b!"x"⟩]) with
      | .ok r => vals r
      | .error _ => []) = [b!"from", b!"to"] := by
  refine ⟨by unfold Distinct; decide, by decide⟩

end Dkim
