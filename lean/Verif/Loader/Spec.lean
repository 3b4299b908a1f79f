import Verif.Loader.Model
namespace Verif.Loader

/-- The module is required by the main module, or by a module that is and that can be loaded. -/
inductive Reach (fetch : MPath → Except LoadError Mod) (main : Mod) : MPath → Prop
  | direct {p} : p ∈ main.required → Reach fetch main p
  | indirect {p q m} : Reach fetch main q → fetch q = .ok m → p ∈ m.required → Reach fetch main p

end Verif.Loader
