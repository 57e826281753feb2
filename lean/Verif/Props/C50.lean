import Verif.Proof.RefractApi
import Verif.Props.C45_C46
/-!
# C50 The converted blueprint shows every resource and action, in order
-/
namespace Verif.Props
open Verif Verif.Refract Verif.RefractApi Verif.Spec

/-- The API category has the name of the API, and the resource elements found in it and its categories are exactly the resources of
    the blueprint, in order, each with its name, URI template and all its actions. -/
theorem C50_resources {δ : Type} (env : Env δ) (b : Blueprint δ) (e : Elem) (h : blueprintToRefract env b = .ok e) :
    e.name = str "category" ∧ metaText e (str "title") = some b.name ∧ classesE e = [str "api"] ∧
      List.Forall₂ (ShowsResource env) (resourcesOfList b.elements) (resourceElems e) := blueprint_resources h

def shop : Blueprint Unit :=
  { name := str "Shop", elements :=
    [.copy (str "hello"),
     .category .resourceGroup (str "Items") [.resource { uriTemplate := str "/a", name := str "A", attributes := (), actions := [getAction] }, .copy []],
     .category .undefined [] [.category .resourceGroup (str "More") [.resource { uriTemplate := str "/b", attributes := (), actions := [getAction, getAction] }]],
     .dataStructure ()] }

example : (blueprintToRefract noStructures shop).toOption.map (fun e => (resourceElems e).map fun r => (attrText r (str "href"), (childrenE r).length)) =
    some [(some (str "/a"), 1), (some (str "/b"), 2)] := by decide +kernel

end Verif.Props
