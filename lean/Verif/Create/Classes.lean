import Verif.Create.Model
/-!
# The element classes of `symfem/elements`

The names, cells and order limits of every class with a name (the class attributes in the file and at
the line given).
-/

namespace Verif.Create

/-- The classes found by the import loop of symfem/create.py:49-61, in alphabetical order of the files
(`os.listdir` gives them in an arbitrary order). -/
def symfemClasses : List ElementClass := [
  -- symfem/elements/abf.py:26
  { path := "abf.ArnoldBoffiFalk"
    names := ["Arnold-Boffi-Falk", "ABF"]
    references := ["quadrilateral"]
    minOrder := some (.all 0) },
  -- symfem/elements/ac.py:21
  { path := "ac.AC"
    names := ["Arbogast-Correa", "AC", "AC full", "Arbogast-Correa full"]
    references := ["quadrilateral"]
    minOrder := some (.all 0) },
  -- symfem/elements/alfeld_sorokina.py:21
  { path := "alfeld_sorokina.AlfeldSorokina"
    names := ["Alfeld-Sorokina", "AS"]
    references := ["triangle"]
    minOrder := some (.all 2)
    maxOrder := some (.all 2) },
  -- symfem/elements/argyris.py:24
  { path := "argyris.Argyris"
    names := ["Argyris"]
    references := ["triangle"]
    minOrder := some (.all 5)
    maxOrder := some (.all 5) },
  -- symfem/elements/aw.py:28
  { path := "aw.ArnoldWinther"
    names := ["Arnold-Winther", "AW", "conforming Arnold-Winther"]
    references := ["triangle"]
    minOrder := some (.all 3) },
  -- symfem/elements/aw.py:159
  { path := "aw.NonConformingArnoldWinther"
    names := ["nonconforming Arnold-Winther", "nonconforming AW"]
    references := ["triangle"]
    minOrder := some (.all 2)
    maxOrder := some (.all 2) },
  -- symfem/elements/bddf.py:47
  { path := "bddf.BDDF"
    names := ["Brezzi-Douglas-Duran-Fortin", "BDDF"]
    references := ["hexahedron"]
    minOrder := some (.all 1) },
  -- symfem/elements/bdfm.py:73
  { path := "bdfm.BDFM"
    names := ["Brezzi-Douglas-Fortin-Marini", "BDFM"]
    references := ["triangle", "quadrilateral", "hexahedron", "tetrahedron"]
    minOrder := some (.all 1) },
  -- symfem/elements/bdm.py:21
  { path := "bdm.BDM"
    names := ["Brezzi-Douglas-Marini", "BDM", "N2div"]
    references := ["triangle", "tetrahedron"]
    minOrder := some (.all 1) },
  -- symfem/elements/bell.py:18
  { path := "bell.Bell"
    names := ["Bell"]
    references := ["triangle"]
    minOrder := some (.all 5)
    maxOrder := some (.all 5) },
  -- symfem/elements/bernardi_raugel.py:28
  { path := "bernardi_raugel.BernardiRaugel"
    names := ["Bernardi-Raugel"]
    references := ["triangle", "tetrahedron"]
    minOrder := some (.all 1)
    maxOrder := some (.each [("triangle", 1), ("tetrahedron", 2)]) },
  -- symfem/elements/bernstein.py:179
  { path := "bernstein.Bernstein"
    names := ["Bernstein", "Bernstein-Bezier"]
    references := ["interval", "triangle", "tetrahedron"]
    minOrder := some (.all 0) },
  -- symfem/elements/bfs.py:18
  { path := "bfs.BognerFoxSchmit"
    names := ["Bogner-Fox-Schmit", "BFS"]
    references := ["quadrilateral"]
    minOrder := some (.all 3)
    maxOrder := some (.all 3) },
  -- symfem/elements/bubble.py:21
  { path := "bubble.Bubble"
    names := ["bubble"]
    references := ["interval", "triangle", "tetrahedron", "quadrilateral", "hexahedron"]
    minOrder := some (.each [("interval", 2), ("triangle", 3), ("tetrahedron", 4), ("quadrilateral", 2), ("hexahedron", 2)]) },
  -- symfem/elements/bubble.py:121
  { path := "bubble.BubbleEnrichedLagrange"
    names := ["bubble enriched Lagrange"]
    references := ["triangle"]
    minOrder := some (.all 1) },
  -- symfem/elements/bubble.py:176
  { path := "bubble.BubbleEnrichedVectorLagrange"
    names := ["bubble enriched vector Lagrange"]
    references := ["triangle"]
    minOrder := some (.all 1) },
  -- symfem/elements/conforming_crouzeix_raviart.py:21
  { path := "conforming_crouzeix_raviart.ConformingCrouzeixRaviart"
    names := ["conforming Crouzeix-Raviart", "conforming CR"]
    references := ["triangle"]
    minOrder := some (.all 1) },
  -- symfem/elements/crouzeix_raviart.py:20
  { path := "crouzeix_raviart.CrouzeixRaviart"
    names := ["Crouzeix-Raviart", "CR", "Crouzeix-Falk", "CF"]
    references := ["triangle", "tetrahedron"]
    minOrder := some (.all 1)
    maxOrder := some (.each [("tetrahedron", 1)]) },
  -- symfem/elements/direct_serendipity.py:17
  { path := "direct_serendipity.DirectSerendipity"
    names := ["direct serendipity"]
    references := ["quadrilateral"]
    minOrder := some (.all 1) },
  -- symfem/elements/dpc.py:23
  { path := "dpc.DPC"
    names := ["dPc"]
    references := ["interval", "quadrilateral", "hexahedron"]
    minOrder := some (.all 0) },
  -- symfem/elements/dpc.py:98
  { path := "dpc.VectorDPC"
    names := ["vector dPc"]
    references := ["quadrilateral", "hexahedron"]
    minOrder := some (.all 0) },
  -- symfem/elements/dual.py:215
  { path := "dual.Dual"
    names := ["dual polynomial", "dual P", "dual"]
    references := ["dual polygon"]
    minOrder := some (.all 0)
    maxOrder := some (.all 1) },
  -- symfem/elements/dual.py:282
  { path := "dual.BuffaChristiansen"
    names := ["Buffa-Christiansen", "BC"]
    references := ["dual polygon"]
    minOrder := some (.all 1)
    maxOrder := some (.all 1) },
  -- symfem/elements/dual.py:351
  { path := "dual.RotatedBuffaChristiansen"
    names := ["rotated Buffa-Christiansen", "RBC"]
    references := ["dual polygon"]
    minOrder := some (.all 1)
    maxOrder := some (.all 1) },
  -- symfem/elements/enriched_galerkin.py:17
  { path := "enriched_galerkin.EnrichedGalerkin"
    names := ["enriched Galerkin", "EG"]
    references := ["interval", "triangle", "quadrilateral", "tetrahedron", "hexahedron"]
    minOrder := some (.all 1) },
  -- symfem/elements/fortin_soulie.py:20
  { path := "fortin_soulie.FortinSoulie"
    names := ["Fortin-Soulie", "FS"]
    references := ["triangle"]
    minOrder := some (.all 2)
    maxOrder := some (.all 2) },
  -- symfem/elements/guzman_neilan.py:24
  { path := "guzman_neilan.GuzmanNeilan"
    names := ["Guzman-Neilan"]
    references := ["triangle", "tetrahedron"]
    minOrder := some (.all 1)
    maxOrder := some (.each [("triangle", 1), ("tetrahedron", 2)]) },
  -- symfem/elements/hct.py:26
  { path := "hct.HsiehCloughTocher"
    names := ["Hsieh-Clough-Tocher", "Clough-Tocher", "HCT", "CT"]
    references := ["triangle"]
    minOrder := some (.all 3)
    maxOrder := some (.all 3) },
  -- symfem/elements/hermite.py:18
  { path := "hermite.Hermite"
    names := ["Hermite"]
    references := ["interval", "triangle", "tetrahedron"]
    minOrder := some (.all 3)
    maxOrder := some (.all 3) },
  -- symfem/elements/hhj.py:28
  { path := "hhj.HellanHerrmannJohnson"
    names := ["Hellan-Herrmann-Johnson", "HHJ"]
    references := ["triangle", "tetrahedron"]
    minOrder := some (.all 0) },
  -- symfem/elements/huang_zhang.py:25
  { path := "huang_zhang.HuangZhang"
    names := ["Huang-Zhang", "HZ"]
    references := ["quadrilateral"]
    minOrder := some (.all 2) },
  -- symfem/elements/kmv.py:69
  { path := "kmv.KongMulderVeldhuizen"
    names := ["Kong-Mulder-Veldhuizen", "KMV"]
    references := ["triangle", "tetrahedron"]
    minOrder := some (.all 1) },
  -- symfem/elements/lagrange.py:28
  { path := "lagrange.Lagrange"
    names := ["Lagrange", "P"]
    references := ["interval", "triangle", "tetrahedron"]
    minOrder := some (.all 0) },
  -- symfem/elements/lagrange.py:115
  { path := "lagrange.VectorLagrange"
    names := ["vector Lagrange", "vP"]
    references := ["interval", "triangle", "tetrahedron"]
    minOrder := some (.all 0) },
  -- symfem/elements/lagrange.py:192
  { path := "lagrange.MatrixLagrange"
    names := ["matrix Lagrange"]
    references := ["triangle", "tetrahedron"]
    minOrder := some (.all 0) },
  -- symfem/elements/lagrange.py:262
  { path := "lagrange.SymmetricMatrixLagrange"
    names := ["symmetric matrix Lagrange"]
    references := ["triangle", "tetrahedron"]
    minOrder := some (.all 0) },
  -- symfem/elements/lagrange_prism.py:27
  { path := "lagrange_prism.Lagrange"
    names := ["Lagrange", "P"]
    references := ["prism"]
    minOrder := some (.all 0) },
  -- symfem/elements/lagrange_pyramid.py:22
  { path := "lagrange_pyramid.Lagrange"
    names := ["Lagrange", "P"]
    references := ["pyramid"]
    minOrder := some (.all 0) },
  -- symfem/elements/morley.py:18
  { path := "morley.Morley"
    names := ["Morley"]
    references := ["triangle"]
    minOrder := some (.all 2)
    maxOrder := some (.all 2) },
  -- symfem/elements/morley_wang_xu.py:23
  { path := "morley_wang_xu.MorleyWangXu"
    names := ["Morley-Wang-Xu", "MWX"]
    references := ["interval", "triangle", "tetrahedron"]
    minOrder := some (.all 1)
    maxOrder := some (.each [("interval", 1), ("triangle", 2), ("tetrahedron", 3)]) },
  -- symfem/elements/mtw.py:28
  { path := "mtw.MardalTaiWinther"
    names := ["Mardal-Tai-Winther", "MTW"]
    references := ["triangle", "tetrahedron"]
    minOrder := some (.all 3)
    maxOrder := some (.all 3) },
  -- symfem/elements/nedelec.py:21
  { path := "nedelec.NedelecFirstKind"
    names := ["Nedelec", "Nedelec1", "N1curl"]
    references := ["triangle", "tetrahedron"]
    minOrder := some (.all 1) },
  -- symfem/elements/nedelec.py:77
  { path := "nedelec.NedelecSecondKind"
    names := ["Nedelec2", "N2curl"]
    references := ["triangle", "tetrahedron"]
    minOrder := some (.all 1) },
  -- symfem/elements/nedelec_prism.py:23
  { path := "nedelec_prism.Nedelec"
    names := ["Nedelec", "Ncurl"]
    references := ["prism"]
    minOrder := some (.all 1)
    maxOrder := some (.all 2) },
  -- symfem/elements/p1_iso_p2.py:21
  { path := "p1_iso_p2.P1IsoP2Interval"
    names := ["P1-iso-P2", "P2-iso-P1", "iso-P2 P1"]
    references := ["interval"]
    minOrder := some (.all 1)
    maxOrder := some (.all 1) },
  -- symfem/elements/p1_iso_p2.py:75
  { path := "p1_iso_p2.P1IsoP2Tri"
    names := ["P1-iso-P2", "P2-iso-P1", "iso-P2 P1"]
    references := ["triangle"]
    minOrder := some (.all 1)
    maxOrder := some (.all 1) },
  -- symfem/elements/p1_iso_p2.py:151
  { path := "p1_iso_p2.P1IsoP2Quad"
    names := ["P1-iso-P2", "P2-iso-P1", "iso-P2 P1"]
    references := ["quadrilateral"]
    minOrder := some (.all 1)
    maxOrder := some (.all 1) },
  -- symfem/elements/p1_macro.py:22
  { path := "p1_macro.P1Macro"
    names := ["P1 macro"]
    references := ["triangle"]
    minOrder := some (.all 1)
    maxOrder := some (.all 1) },
  -- symfem/elements/q.py:34
  { path := "q.Q"
    names := ["Q", "Lagrange", "P"]
    references := ["quadrilateral", "hexahedron"]
    minOrder := some (.all 0) },
  -- symfem/elements/q.py:173
  { path := "q.VectorQ"
    names := ["vector Q", "vQ"]
    references := ["quadrilateral", "hexahedron"]
    minOrder := some (.all 0) },
  -- symfem/elements/q.py:241
  { path := "q.Nedelec"
    names := ["NCE", "RTCE", "Qcurl", "Nedelec", "Ncurl"]
    references := ["quadrilateral", "hexahedron"]
    minOrder := some (.all 1) },
  -- symfem/elements/q.py:301
  { path := "q.RaviartThomas"
    names := ["NCF", "RTCF", "Qdiv"]
    references := ["quadrilateral", "hexahedron"]
    minOrder := some (.all 1) },
  -- symfem/elements/rannacher_turek.py:18
  { path := "rannacher_turek.RannacherTurek"
    names := ["Rannacher-Turek"]
    references := ["quadrilateral", "hexahedron"]
    minOrder := some (.all 1)
    maxOrder := some (.all 1) },
  -- symfem/elements/regge.py:33
  { path := "regge.Regge"
    names := ["Regge"]
    references := ["triangle", "tetrahedron"]
    minOrder := some (.all 0) },
  -- symfem/elements/regge.py:202
  { path := "regge.ReggeTP"
    names := ["Regge"]
    references := ["quadrilateral", "hexahedron"]
    minOrder := some (.all 0) },
  -- symfem/elements/rhct.py:21
  { path := "rhct.ReducedHsiehCloughTocher"
    names := ["reduced Hsieh-Clough-Tocher", "rHCT"]
    references := ["triangle"]
    minOrder := some (.all 3)
    maxOrder := some (.all 3) },
  -- symfem/elements/rt.py:20
  { path := "rt.RaviartThomas"
    names := ["Raviart-Thomas", "RT", "N1div"]
    references := ["triangle", "tetrahedron"]
    minOrder := some (.all 1) },
  -- symfem/elements/serendipity.py:32
  { path := "serendipity.Serendipity"
    names := ["serendipity", "S"]
    references := ["interval", "quadrilateral", "hexahedron"]
    minOrder := some (.all 1) },
  -- symfem/elements/serendipity.py:95
  { path := "serendipity.SerendipityCurl"
    names := ["serendipity Hcurl", "Scurl", "BDMCE", "AAE"]
    references := ["quadrilateral", "hexahedron"]
    minOrder := some (.all 1) },
  -- symfem/elements/serendipity.py:157
  { path := "serendipity.SerendipityDiv"
    names := ["serendipity Hdiv", "Sdiv", "BDMCF", "AAF"]
    references := ["quadrilateral", "hexahedron"]
    minOrder := some (.all 1) },
  -- symfem/elements/taylor.py:17
  { path := "taylor.Taylor"
    names := ["Taylor", "discontinuous Taylor"]
    references := ["interval", "triangle", "tetrahedron"]
    minOrder := some (.all 0) },
  -- symfem/elements/tnt.py:62
  { path := "tnt.TNT"
    names := ["tiniest tensor", "TNT"]
    references := ["quadrilateral", "hexahedron"]
    minOrder := some (.all 1) },
  -- symfem/elements/tnt.py:157
  { path := "tnt.TNTcurl"
    names := ["tiniest tensor Hcurl", "TNTcurl"]
    references := ["quadrilateral", "hexahedron"]
    minOrder := some (.all 1) },
  -- symfem/elements/tnt.py:335
  { path := "tnt.TNTdiv"
    names := ["tiniest tensor Hdiv", "TNTdiv"]
    references := ["quadrilateral", "hexahedron"]
    minOrder := some (.all 1) },
  -- symfem/elements/transition.py:20
  { path := "transition.Transition"
    names := ["transition"]
    references := ["triangle", "tetrahedron"]
    minOrder := some (.all 1) },
  -- symfem/elements/trimmed_serendipity.py:28
  { path := "trimmed_serendipity.TrimmedSerendipityHcurl"
    names := ["trimmed serendipity Hcurl", "TScurl"]
    references := ["quadrilateral", "hexahedron"]
    minOrder := some (.all 1) },
  -- symfem/elements/trimmed_serendipity.py:147
  { path := "trimmed_serendipity.TrimmedSerendipityHdiv"
    names := ["trimmed serendipity Hdiv", "TSdiv"]
    references := ["quadrilateral", "hexahedron"]
    minOrder := some (.all 1) },
  -- symfem/elements/vector_enriched_galerkin.py:67
  { path := "vector_enriched_galerkin.VectorEnrichedGalerkin"
    names := ["enriched vector Galerkin", "locking-free enriched Galerkin", "LFEG"]
    references := ["triangle", "quadrilateral", "tetrahedron", "hexahedron"]
    minOrder := some (.all 1) },
  -- symfem/elements/wu_xu.py:42
  { path := "wu_xu.WuXu"
    names := ["Wu-Xu"]
    references := ["interval", "triangle", "tetrahedron"]
    minOrder := some (.each [("interval", 2), ("triangle", 3), ("tetrahedron", 4)])
    maxOrder := some (.each [("interval", 2), ("triangle", 3), ("tetrahedron", 4)]) }]

end Verif.Create
