import Verif.Spec.Scopes
/-!
The places of a parse tree, computed.
-/
namespace Verif.Scopes
open Verif.Peg Verif.Grammar Verif.TextOut

def seqs (a b : List (List Mark)) : List (List Mark) := a.flatMap (fun l => b.map (l ++ ·))

theorem mem_seqs {a b : List (List Mark)} {l l'} (h : l ∈ a) (h' : l' ∈ b) : l ++ l' ∈ seqs a b :=
  List.mem_flatMap.2 ⟨l, h, List.mem_map.2 ⟨l', h', rfl⟩⟩

mutual
def places : Tree NT → List (List Mark)
  | .node .rootItem _ kids => placesAll kids
  | .node .proto _ (.node .nodegi nm _ :: rest) => (parts rest).map (fun l => .proto rest :: (l ++ [.endProto nm]))
  | .node .externProto _ (.node .nodegi nm _ :: rest) => (parts rest).map (fun l => .proto rest :: (l ++ [.endProto nm]))
  | .node .node _ (.node .nodegi gi _ :: rest) => (placesAll rest).map (.node gi [] :: ·)
  | .node .node _ (.node .name DEF _ :: .node .nodegi gi _ :: rest) => (placesAll rest).map (.node gi DEF :: ·)
  | .node .script _ (.node .name DEF a :: rest) =>
    (seqs (decls rest) (attrs rest)).map (.script DEF :: ·) ++ (seqs (decls (.node .name DEF a :: rest)) (attrs (.node .name DEF a :: rest))).map (.script [] :: ·)
  | .node .script _ rest => (seqs (decls rest) (attrs rest)).map (.script [] :: ·)
  | .node .sfNull _ _ => [[]]
  | .node .use nm _ => [[.use nm]]
  | .node .route _ [.node .name s _, .node .name sf _, .node .name d _, .node .name df _] => [[.route s sf d df]]
  | .node .attr _ [.node .name _ _, .node t m kids] => (if t = .is then [[]] else []) ++ places (.node t m kids)
  | .node .field _ [] => [[]]
  | .node .field _ (t :: kids) => seqs (places t) (placesAll kids) ++ (if nodeEntry t then places t else [[]])
  | _ => []
def placesAll : List (Tree NT) → List (List Mark)
  | [] => [[]]
  | t :: ts => seqs (places t) (placesAll ts)
def parts : List (Tree NT) → List (List Mark)
  | [.node .vrmlScene _ kids] => (placesAll kids).map (fun l => .openBody :: (l ++ [.closeBody]))
  | [.node .extProtoURL _ _] => [[]]
  | .node .fieldDecl _ [_, _, _, v] :: ts => seqs (places v) (parts ts)
  | .node .extFieldDecl _ _ :: ts => parts ts
  | .node .eventDecl _ _ :: ts => parts ts
  | _ => []
def decls : List (Tree NT) → List (List Mark)
  | [] => [[]]
  | .node .scriptFieldDecl _ [_, _, _, .node t m kids] :: ts => (if t = .is then decls ts else []) ++ seqs (places (.node t m kids)) (decls ts)
  | .node .scriptEventDecl _ _ :: ts => decls ts
  | .node .attr _ _ :: ts => decls ts
  | .node .proto m kids :: ts => seqs (places (.node .proto m kids)) (decls ts)
  | .node .externProto m kids :: ts => seqs (places (.node .externProto m kids)) (decls ts)
  | .node .route m kids :: ts => seqs (places (.node .route m kids)) (decls ts)
  | _ => []
def attrs : List (Tree NT) → List (List Mark)
  | [] => [[]]
  | .node .attr m kids :: ts => seqs (places (.node .attr m kids)) (attrs ts)
  | _ :: ts => attrs ts
end

mutual
theorem mem_places : ∀ {t l}, Places t l → l ∈ places t
  | _, _, .item h => by unfold places; exact mem_placesAll h
  | _, _, .proto h => by unfold places; exact List.mem_map.2 ⟨_, mem_parts h, rfl⟩
  | _, _, .extern h => by unfold places; exact List.mem_map.2 ⟨_, mem_parts h, rfl⟩
  | _, _, .node h => by unfold places; exact List.mem_map.2 ⟨_, mem_placesAll h, rfl⟩
  | _, _, .defNode h => by unfold places; exact List.mem_map.2 ⟨_, mem_placesAll h, rfl⟩
  | .node .script m rest, _, .script h h' => by
    have h1 : _ :: (_ ++ _) ∈ (seqs (decls rest) (attrs rest)).map (Mark.script [] :: ·) := List.mem_map.2 ⟨_, mem_seqs (mem_decls h) (mem_attrs h'), rfl⟩
    by_cases hr : ∃ DEF a r, rest = .node .name DEF a :: r
    · obtain ⟨DEF, a, r, rfl⟩ := hr
      unfold places
      exact List.mem_append_right _ h1
    · rw [places.eq_7 _ _ (fun DEF a r he => hr ⟨DEF, a, r, he⟩)]
      exact h1
  | _, _, .defScript h h' => by unfold places; exact List.mem_append_left _ (List.mem_map.2 ⟨_, mem_seqs (mem_decls h) (mem_attrs h'), rfl⟩)
  | _, _, .null => by unfold places; simp
  | _, _, .use => by unfold places; simp
  | _, _, .route => by unfold places; simp
  | _, _, .isAttr => by unfold places; simp
  | .node _ _ [_, .node t m k], _, .attr h => by unfold places; exact List.mem_append_right _ (mem_places h)
  | _, _, .allNodes .nil => by unfold places; simp
  | _, _, .allNodes (.cons h h') => by unfold places; exact List.mem_append_left _ (mem_seqs (mem_places h) (mem_placesAll h'))
  | _, _, .firstNode e h => by unfold places; rw [e, if_pos rfl]; exact List.mem_append_right _ (mem_places h)
  | .node _ _ [], _, .simple h => by unfold places; simp
  | .node _ _ (t :: ts), _, .simple h => by unfold places; rw [h t (by simp)]; exact List.mem_append_right _ (by simp)
theorem mem_placesAll : ∀ {t l}, PlacesAll t l → l ∈ placesAll t
  | _, _, .nil => by unfold placesAll; simp
  | _, _, .cons h h' => by unfold placesAll; exact mem_seqs (mem_places h) (mem_placesAll h')
theorem mem_parts : ∀ {t l}, Parts t l → l ∈ parts t
  | _, _, .body h => by unfold parts; exact List.mem_map.2 ⟨_, mem_placesAll h, rfl⟩
  | _, _, .urls => by unfold parts; simp
  | _, _, .field h h' => by unfold parts; exact mem_seqs (mem_places h) (mem_parts h')
  | _, _, .extField h => by unfold parts; exact mem_parts h
  | _, _, .event h => by unfold parts; exact mem_parts h
theorem mem_decls : ∀ {t l}, Decls t l → l ∈ decls t
  | _, _, .nil => by unfold decls; simp
  | .node _ _ [_, _, _, .node t m k] :: _, _, .field h h' => by unfold decls; exact List.mem_append_right _ (mem_seqs (mem_places h) (mem_decls h'))
  | _, _, .isField h => by unfold decls; exact List.mem_append_left _ (by simpa using mem_decls h)
  | _, _, .event h => by unfold decls; exact mem_decls h
  | _, _, .attr h => by unfold decls; exact mem_decls h
  | _, _, .proto h h' => by unfold decls; exact mem_seqs (mem_places h) (mem_decls h')
  | _, _, .extern h h' => by unfold decls; exact mem_seqs (mem_places h) (mem_decls h')
  | _, _, .route h h' => by unfold decls; exact mem_seqs (mem_places h) (mem_decls h')
theorem mem_attrs : ∀ {t l}, Attrs t l → l ∈ attrs t
  | _, _, .nil => by unfold attrs; simp
  | _, _, .attr h h' => by unfold attrs; exact mem_seqs (mem_places h) (mem_attrs h')
  | t :: ts, _, .other h h' => by
    unfold attrs
    split
    · simp_all
    · rename_i he; cases he; exact absurd rfl (h _ _)
    · rename_i he; cases he; exact mem_attrs h'
end

end Verif.Scopes
