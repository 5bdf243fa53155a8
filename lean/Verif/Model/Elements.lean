import Mathlib.Data.Rat.Defs

/-! # The table of atomic weights, /repo/src/teflow/loader.py:30-165

Copied entry by entry; `none` is the `_UNSET` placeholder. -/

namespace TEflow.Loader

/-- `AtomicWeight` with its field names (loader.py:30-43, 46-165); amounts are exact decimals -/
def atomicWeight : List (String × Option ℚ) := [
  ("XX", none), ("H", some (50397/50000)), ("He", some (2001301/500000)), ("Li", some (6941/1000)),
  ("Be", some (4506091/500000)), ("B", some (10811/1000)), ("C", some (120107/10000)), ("N", some (140067/10000)),
  ("O", some (79997/5000)), ("F", some (5937001/312500)), ("Ne", some (201797/10000)), ("Na", some (71843029/3125000)),
  ("Mg", some (4861/200)), ("Al", some (134907693/5000000)), ("Si", some (56171/2000)), ("P", some (15486881/500000)),
  ("S", some (6413/200)), ("Cl", some (35453/1000)), ("Ar", some (9987/250)), ("K", some (390983/10000)),
  ("Ca", some (20039/500)), ("Sc", some (5619489/125000)), ("Ti", some (47867/1000)), ("V", some (101883/2000)),
  ("Cr", some (519961/10000)), ("Mn", some (10987609/200000)), ("Fe", some (11169/200)), ("Co", some (11786639/200000)),
  ("Ni", some (293467/5000)), ("Cu", some (31773/500)), ("Zn", some (65409/1000)), ("Ga", some (69723/1000)),
  ("Ge", some (1816/25)), ("As", some (46826/625)), ("Se", some (1974/25)), ("Br", some (9988/125)),
  ("Kr", some (41899/500)), ("Rb", some (427339/5000)), ("Sr", some (4381/50)), ("Y", some (1778117/20000)),
  ("Zr", some (11403/125)), ("Nb", some (4645319/50000)), ("Mo", some (4797/50)), ("Tc", some (98/1)),
  ("Ru", some (10107/100)), ("Rh", some (205811/2000)), ("Pd", some (5321/50)), ("Ag", some (539341/5000)),
  ("Cd", some (112411/1000)), ("In", some (57409/500)), ("Sn", some (11871/100)), ("Sb", some (3044/25)),
  ("Te", some (638/5)), ("I", some (12690447/100000)), ("Xe", some (131293/1000)), ("Cs", some (1329054519/10000000)),
  ("Ba", some (137327/1000)), ("La", some (13890547/100000)), ("Ce", some (35029/250)), ("Pr", some (2818153/20000)),
  ("Nd", some (72121/500)), ("Pm", some (145/1)), ("Sm", some (3759/25)), ("Eu", some (37991/250)),
  ("Gd", some (629/4)), ("Tb", some (3178507/20000)), ("Dy", some (325/2)), ("Ho", some (2061629/12500)),
  ("Er", some (167259/1000)), ("Tm", some (16893421/100000)), ("Yb", some (4326/25)), ("Lu", some (174967/1000)),
  ("Hf", some (17849/100)), ("Ta", some (4523697/25000)), ("W", some (4596/25)), ("Re", some (186207/1000)),
  ("Os", some (19023/100)), ("Ir", some (192217/1000)), ("Pt", some (48771/250)), ("Au", some (196966569/1000000)),
  ("Hg", some (20059/100)), ("Tl", some (2043833/10000)), ("Pb", some (1036/5)), ("Bi", some (522451/2500)),
  ("Po", some (210/1)), ("At", some (210/1)), ("Rn", some (220/1)), ("Fr", some (223/1)),
  ("Ra", some (226/1)), ("Ac", some (227/1)), ("Th", some (11601903/50000)), ("Pa", some (5775897/25000)),
  ("U", some (23802891/100000)), ("Np", some (237/1)), ("Pu", some (244/1)), ("Am", some (243/1)),
  ("Cm", some (247/1)), ("Bk", some (247/1)), ("Cf", some (251/1)), ("Es", some (252/1)),
  ("Fm", some (257/1)), ("Md", some (258/1)), ("No", some (259/1)), ("Lr", some (262/1)),
  ("Rf", some (267/1)), ("Db", some (268/1)), ("Sg", some (269/1)), ("Bh", some (270/1)),
  ("Hs", some (270/1)), ("Mt", some (278/1)), ("Ds", some (281/1)), ("Rg", some (282/1)),
  ("Cn", some (285/1)), ("Nh", some (286/1)), ("Fl", some (289/1)), ("Mc", some (290/1)),
  ("Lv", some (293/1)), ("Ts", some (294/1)), ("Og", some (294/1))]

end TEflow.Loader
