import Verif.Model.Structured

/-!
Model of `examples/benchmark_generators/moving_obstacle_evasion.py`, which writes specifications of a robot that evades a moving obstacle.
-/

namespace Slugs.Model.Evasion

open Slugs.Model.Structured

/-- `text` in `makeBenchmarkFile` (moving_obstacle_evasion.py:60-100): the contents of the structured specification file for a configuration `(w, h, most)`.  Not modelled
are the name of the file and the calls of other programs afterwards. -/
def benchmark (w h most : Nat) : List Char :=
  txt!"[INPUT]\nobsx: 0..." ++ (strInt ((w : Int) - 2) ++ (txt!"\nobsy: 0..." ++ (strInt ((h : Int) - 2) ++ (txt!"\nrobx: 0..." ++ (strInt ((w : Int) - 1) ++
    (txt!"\nroby: 0..." ++ (strInt ((h : Int) - 1) ++ (txt!"\nglitches: 0..." ++ (strNat most ++
    (txt!"\n\n[OUTPUT]\nmovx: 0...2\nmovy: 0...2\nobsmove\n\n[SYS_INIT]\n! obsmove\n\n\n[SYS_TRANS]\n(robx < obsx) | (robx >= obsx+2) | (roby < obsy) | (roby >= obsy+2)\n(obsmove' -> ( (obsx=obsx') & (obsy=obsy') ) ) \n((! obsmove') -> ! ( (obsx=obsx') & (obsy=obsy') ) )\n\n\n[ENV_INIT]\nrobx = 0\nroby = 0\nobsx = " ++ (strInt ((w : Int) - 2) ++
    (txt!"\nobsy = " ++ (strInt ((h : Int) - 2) ++
    (txt!"\nglitches = 0\n\n[ENV_TRANS]\n(obsx' <= obsx+1) & (obsy' <= obsy+1) & (obsx <= obsx'+1) & (obsy <= obsy'+1) & (robx' <= robx+1) & (roby' <= roby+1) & (robx <= robx'+1) & (roby <= roby'+1) \n\n(robx=0 & robx'=0 & movx<=1 | robx'+1 <= robx+movx) & (robx=" ++ (strInt ((w : Int) - 1) ++ (txt!" & robx'=" ++ (strInt ((w : Int) - 1) ++
    (txt!" & movx >= 1 | robx'+1 >= robx+movx) & (roby=0 & roby'=0 & movy <= 1 | roby'+1 <= roby+movy) & (roby=" ++ (strInt ((h : Int) - 1) ++ (txt!" & roby'=" ++ (strInt ((h : Int) - 1) ++ (txt!" & movy>=1 | roby'+1 >= roby+movy) \n\nglitches' >= glitches\n(obsmove | (obsx=obsx')) & (obsmove | (obsy=obsy')) | (glitches' >= glitches+1)\n\n"))))))))))))))))))))))

end Slugs.Model.Evasion
