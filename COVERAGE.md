# Which code is modelled

For every function of `/repo/ibl`: the definitions of `lean/Verif/Model` whose comments cite its lines.
*Record field*: a property that returns a stored value; the field of the model's record stands for it.
*Abstract*: declared only, the overriding methods are modelled.

## ibl/analytic/_analytic_2d_base.py

| function | lines | model |
|---|---|---|
| `Analytic2dSimilarityIncompressible.__init__` | 41-60 | `Analytic.Sim`, `Analytic.mkBase` |
| `Analytic2dSimilarityIncompressible.u_ref` | 63-68 | record field |
| `Analytic2dSimilarityIncompressible.u_ref (setter)` | 71-75 | `Analytic.Sim.setURef` |
| `Analytic2dSimilarityIncompressible.nu_ref` | 78-83 | record field |
| `Analytic2dSimilarityIncompressible.nu_ref (setter)` | 86-90 | `Analytic.Sim.setNuRef` |
| `Analytic2dSimilarityIncompressible.fw_pp` | 93-99 | `Analytic.Sim.fwPp` |
| `Analytic2dSimilarityIncompressible.eta_inf` | 102-107 | record field |
| `Analytic2dSimilarityIncompressible.eta_d` | 110-114 | record field |
| `Analytic2dSimilarityIncompressible.eta_m` | 117-121 | record field |
| `Analytic2dSimilarityIncompressible.eta_k` | 124-128 | record field |
| `Analytic2dSimilarityIncompressible.eta_s` | 131-135 | record field |
| `Analytic2dSimilarityIncompressible.f` | 137-154 | `AnalyticArray.Sim.fNd`, `Analytic.Sim.fAt` |
| `Analytic2dSimilarityIncompressible.f_p` | 156-173 | `AnalyticArray.Sim.fNd`, `Analytic.Sim.fpAt` |
| `Analytic2dSimilarityIncompressible.f_pp` | 175-192 | `AnalyticArray.Sim.fNd`, `Analytic.Sim.fppAt` |
| `Analytic2dSimilarityIncompressible.u_e` | 194-210 | `Analytic.Sim.uE`, `AnalyticArray.Sim.uENd` |
| `Analytic2dSimilarityIncompressible.v_e` | 212-226 | `Analytic.Sim.vE`, `AnalyticArray.Sim.vENd` |
| `Analytic2dSimilarityIncompressible.eta` | 228-250 | `Analytic.Sim.eta`, `AnalyticArray.Sim.etaNd` |
| `Analytic2dSimilarityIncompressible.u` | 252-272 | `Analytic.Sim.u`, `AnalyticArray.Sim.uNd` |
| `Analytic2dSimilarityIncompressible.v` | 274-297 | `Analytic.Sim.v`, `AnalyticArray.Sim.vNd` |
| `Analytic2dSimilarityIncompressible.delta_d` | 299-313 | `Analytic.Sim.deltaD`, `AnalyticArray.Sim.deltaDNd` |
| `Analytic2dSimilarityIncompressible.delta_m` | 315-329 | `Analytic.Sim.deltaM`, `AnalyticArray.Sim.deltaMNd` |
| `Analytic2dSimilarityIncompressible.delta_k` | 331-345 | `Analytic.Sim.deltaK`, `AnalyticArray.Sim.deltaKNd` |
| `Analytic2dSimilarityIncompressible.delta_s` | 347-361 | `Analytic.Sim.deltaS`, `AnalyticArray.Sim.deltaSNd` |
| `Analytic2dSimilarityIncompressible.shape_d` | 363-378 | `Analytic.Sim.shapeD`, `AnalyticArray.Sim.shapeDNd` |
| `Analytic2dSimilarityIncompressible.shape_k` | 380-395 | `Analytic.Sim.shapeK`, `AnalyticArray.Sim.shapeKNd` |
| `Analytic2dSimilarityIncompressible.tau_w` | 397-413 | `Analytic.Sim.tauW`, `AnalyticArray.Sim.tauWNd` |
| `Analytic2dSimilarityIncompressible.dissipation` | 415-432 | `Analytic.Sim.dissipation`, `AnalyticArray.Sim.dissipationNd` |
| `Analytic2dSimilarityIncompressible.set_solution_parameters` | 434-484 | `Analytic.badParam`, `Analytic.Sim.thicknesses`, `Analytic.Sim.setSolutionParameters` |
| `Analytic2dSimilarityIncompressible.set_solution_parameters.k_fun` | 472-473 | `Analytic.Sim.thicknesses`, `Analytic.Sim.setSolutionParameters` |
| `Analytic2dSimilarityIncompressible.set_solution_parameters.s_fun` | 477-478 | `Analytic.Sim.thicknesses`, `Analytic.Sim.setSolutionParameters` |
| `Analytic2dSimilarityIncompressible._calculate_solution` | 486-672 | `Analytic.Problem`, `Analytic.innerLoop`, `Analytic.Sim.scaledRhs`, `Analytic.Sim.plainRhs`, `Analytic.outerLoop` … |
| `Analytic2dSimilarityIncompressible._calculate_solution._ode_fun` | 635-658 | `Analytic.Sim.plainRhs`, `Analytic.Sim.calculateSolution` |
| `Analytic2dSimilarityIncompressible._g` | 675-688 | abstract |

## ibl/analytic/_blasius.py

| function | lines | model |
|---|---|---|
| `Blasius.__init__` | 38-51 | `Analytic.mkBlasius` |
| `Blasius.fw_pp_default` | 54-56 | record field |
| `Blasius.eta_inf_default` | 59-61 | record field |
| `Blasius._g` | 64-78 | `Analytic.Sim.gFactor`, `Analytic.Sim.g`, `AnalyticArray.Sim.gNd` |

## ibl/analytic/_falkner_skan.py

| function | lines | model |
|---|---|---|
| `FalknerSkan.__init__` | 38-47 | `Analytic.badBeta`, `Analytic.mkFalknerSkan` |
| `FalknerSkan.beta` | 50-54 | record field |
| `FalknerSkan.m` | 57-63 | `Analytic.Sim.m` |
| `FalknerSkan.reset_beta` | 65-96 | `Analytic.badBeta`, `Analytic.Sim.resetBeta` |
| `FalknerSkan.reset_m` | 98-129 | `Analytic.Sim.resetM` |
| `FalknerSkan._g` | 132-146 | `Analytic.Sim.gFactor`, `Analytic.Sim.g`, `AnalyticArray.Sim.gNd` |

## ibl/head_method.py

| function | lines | model |
|---|---|---|
| `HeadMethod.__init__` | 30-37 | `Method.Obj.mkHead` |
| `HeadMethod.initial_delta_m` | 40-45 | `Method.Obj.initialDeltaM` |
| `HeadMethod.initial_delta_m (setter)` | 48-51 | `InitialCondition.assignDelM`, `Method.Obj.setInitialDeltaM` |
| `HeadMethod.initial_shape_d` | 54-59 | `Method.Obj.initialShapeD` |
| `HeadMethod.initial_shape_d (setter)` | 62-65 | `InitialCondition.assignDelD`, `Method.Obj.setInitialShapeD` |
| `HeadMethod.set_shape_d_critical` | 67-82 | `Method.Obj.setShapeDCritical` |
| `HeadMethod.v_e` | 85-107 | `HeadArray.vE`, `Method.Obj.vEHead` |
| `HeadMethod.delta_d` | 110-124 | `Method.Obj.deltaD` |
| `HeadMethod.delta_m` | 127-144 | `Method.Obj.state`, `Method.Obj.deltaM` |
| `HeadMethod.delta_k` | 147-161 | `Method.Obj.deltaK` |
| `HeadMethod.shape_d` | 164-181 | `Method.Obj.shapeD` |
| `HeadMethod.shape_k` | 184-198 | `Method.Obj.shapeK` |
| `HeadMethod.tau_w` | 201-226 | `Head.floorArray`, `HeadArray.floorInPlace`, `HeadArray.tauW` |
| `HeadMethod.dissipation` | 229-245 | `Method.Obj.dissipation` |
| `HeadMethod._ode_setup` | 248-259 | `Method.Obj.startVector` |
| `HeadMethod._ode_impl` | 262-300 | `Head.floorArray`, `HeadArray.floorInPlace`, `Head.floorScalar`, `HeadArray.Num.store`, `Head.odeClamp` … |
| `HeadMethod._shape_entrainment` | 303-338 | `Head.dHigh`, `Head.clampShape`, `Head.h1Low`, `Head.h1High`, `Head.h1` |
| `HeadMethod._shape_entrainment.shape_entrainment_low` | 323-328 | `Head.h1Low`, `Head.h1` |
| `HeadMethod._shape_entrainment.shape_entrainment_high` | 330-335 | `Head.dHigh`, `Head.h1High`, `Head.h1` |
| `HeadMethod._shape_entrainment_p` | 341-374 | `Head.clampShape`, `Head.h1p` |
| `HeadMethod._shape_entrainment_p.shape_entrainment_low` | 361-365 | `Head.h1p` |
| `HeadMethod._shape_entrainment_p.shape_entrainment_high` | 367-371 | `Head.h1p` |
| `HeadMethod._shape_d` | 377-415 | `Head.dHigh`, `Head.hOfLow`, `Head.hOfHigh`, `Head.hOf` |
| `HeadMethod._shape_d.shape_d_low` | 397-402 | `Head.dHigh`, `Head.hOfLow`, `Head.hOf` |
| `HeadMethod._shape_d.shape_d_high` | 404-409 | `Head.hOfHigh`, `Head.hOf` |
| `HeadMethod._entrainment_velocity` | 418-424 | `Head.entrainment` |
| `_HeadSeparationEvent.__init__` | 439-449 | `Method.Event` |
| `_HeadSeparationEvent._call_impl` | 452-473 | `Method.Obj.eventValue`, `Method.Event` |
| `_HeadSeparationEvent.event_info` | 476-477 | `Method.Event.info`, `Method.Event` |

## ibl/ibl_method.py

| function | lines | model |
|---|---|---|
| `TermReason.__str__` | 40-48 | `Method.IvpProblem`, `Method.TermReason.text`, `Method.TermReason` |
| `IntegrationResult.__init__` | 74-98 | `Method.IntegrationResult` |
| `IntegrationResult.x_end` | 101-105 | `Method.IntegrationResult` |
| `IntegrationResult.f_end` | 108-112 | `Method.IntegrationResult` |
| `IntegrationResult.status` | 115-119 | `Method.IntegrationResult` |
| `IntegrationResult.message` | 122-126 | `Method.IntegrationResult` |
| `IntegrationResult.success` | 129-133 | `Method.IntegrationResult` |
| `IntegrationResult.__str__` | 136-152 | `ResultText.IntegrationResult.str` |
| `TermEvent.__init__` | 176-179 | `Method.Event` |
| `TermEvent.__call__` | 181-197 | `Method.Event` |
| `TermEvent.event_info` | 200-219 | `Method.Event` |
| `TermEvent._call_impl` | 222-243 | `Method.Event` |
| `IBLMethod.__init__` | 331-356 | `Method.Obj.mkBase`, `Velocity.VelState.empty` |
| `IBLMethod.nu` | 359-364 | record field |
| `IBLMethod.nu (setter)` | 367-370 | `Method.Obj.setNu` |
| `IBLMethod.set_initial_condition` | 372-381 | `Method.Obj.setInitialCondition`, `Shared.World.step` |
| `IBLMethod.set_velocity` | 383-513 | `PPoly.addConst`, `Velocity.Arg`, `Velocity.setVelCallable`, `Velocity.setVelocity`, `Velocity.Callable` … |
| `IBLMethod.set_velocity.fd_1f` | 407-410 | `Velocity.fd1Comb`, `Method.Obj.setVelocity`, `Velocity.setVelocity` |
| `IBLMethod.set_velocity.fd_2f` | 411-415 | `Velocity.fd2Comb`, `Method.Obj.setVelocity`, `Velocity.setVelocity` |
| `IBLMethod.solve` | 515-599 | `Method.Obj.prepare`, `Method.IvpProblem`, `Method.composeMessage`, `Method.firstFired`, `Method.IvpResult` … |
| `IBLMethod.u_e` | 601-622 | `ThwaitesArray.uArr`, `Velocity.VelState.uE`, `HeadArray.ArrFn` |
| `IBLMethod.du_e` | 624-645 | `ThwaitesArray.duArr`, `Velocity.VelState.duE`, `HeadArray.ArrFn` |
| `IBLMethod.d2u_e` | 647-668 | `ThwaitesArray.d2uArr`, `Velocity.VelState.d2uE` |
| `IBLMethod._add_kill_event` | 670-683 | `KillEvent.Obj.addKillEvent` |
| `IBLMethod._set_kill_event` | 685-698 | `KillEvent.Obj.setKillEvent`, `Method.Obj.setDataFits` |
| `IBLMethod.v_e` | 701-714 | abstract |
| `IBLMethod.delta_d` | 717-730 | abstract |
| `IBLMethod.delta_m` | 733-746 | abstract |
| `IBLMethod.delta_k` | 749-762 | abstract |
| `IBLMethod.shape_d` | 765-778 | abstract |
| `IBLMethod.shape_k` | 781-794 | abstract |
| `IBLMethod.tau_w` | 797-812 | abstract |
| `IBLMethod.dissipation` | 815-830 | abstract |
| `IBLMethod._ode_setup` | 833-846 | abstract |
| `IBLMethod._ode_impl` | 849-865 | abstract |

## ibl/initial_condition.py

| function | lines | model |
|---|---|---|
| `InitialCondition.__init__` | 27-32 | `InitialCondition.mkStag`, `InitialCondition.IC` |
| `InitialCondition.du_e` | 35-39 | `InitialCondition.du`, `InitialCondition.IC` |
| `InitialCondition.du_e (setter)` | 42-43 | `InitialCondition.setDu`, `InitialCondition.IC` |
| `InitialCondition.nu` | 46-51 | `InitialCondition.nu`, `InitialCondition.IC` |
| `InitialCondition.nu (setter)` | 54-57 | `InitialCondition.mkStag`, `InitialCondition.setNu`, `InitialCondition.IC` |
| `InitialCondition.shape_d` | 60-68 | abstract |
| `InitialCondition.shape_k` | 71-79 | abstract |
| `InitialCondition.delta_d` | 82-90 | abstract |
| `InitialCondition.delta_m` | 93-101 | abstract |
| `InitialCondition.delta_k` | 104-112 | abstract |
| `FalknerSkanStagCondition.__init__` | 123-128 | `InitialCondition.stagFpp0`, `InitialCondition.mkStag`, `InitialCondition.IC` |
| `FalknerSkanStagCondition.shape_d` | 131-140 | `InitialCondition.shapeD`, `InitialCondition.IC` |
| `FalknerSkanStagCondition.shape_k` | 143-152 | `InitialCondition.shapeK` |
| `FalknerSkanStagCondition.delta_d` | 155-164 | `InitialCondition.deltaD` |
| `FalknerSkanStagCondition.delta_m` | 167-177 | `InitialCondition.deltaM` |
| `FalknerSkanStagCondition.delta_k` | 180-189 | `InitialCondition.deltaK` |
| `ManualCondition.__init__` | 209-213 | `InitialCondition.mkManual`, `InitialCondition.IC` |
| `ManualCondition.shape_d` | 216-225 | `InitialCondition.shapeD`, `InitialCondition.IC` |
| `ManualCondition.shape_k` | 228-237 | `InitialCondition.shapeK` |
| `ManualCondition.delta_d` | 240-249 | `InitialCondition.deltaD` |
| `ManualCondition.delta_m` | 252-261 | `InitialCondition.deltaM` |
| `ManualCondition.delta_k` | 264-273 | `InitialCondition.deltaK` |

## ibl/reference/_stanford_1968.py

| function | lines | model |
|---|---|---|
| `StanfordOlympics1968.__init__` | 65-80 | `StanfordCase.Case.empty`, `StanfordCase.Case`, `StanfordCase.Case.mk'` |
| `StanfordOlympics1968.nu_ref` | 83-85 | record field |
| `StanfordOlympics1968.case` | 88-90 | record field |
| `StanfordOlympics1968.case (setter)` | 93-168 | `StanfordCase.parts`, `StanfordCase.siUnit`, `StanfordCase.viscosity`, `StanfordCase.addStations`, `StanfordCase.stationTexts` … |
| `StanfordOlympics1968.station_count` | 170-179 | `StanfordCase.Case.stationCount` |
| `StanfordOlympics1968.station` | 181-196 | `StanfordCase.Case.station` |
| `StanfordOlympics1968.x_smooth` | 198-209 | `StanfordCase.Case.xSmooth` |
| `StanfordOlympics1968.u_e_smooth` | 211-222 | `StanfordCase.Case.xSmooth` |
| `StanfordOlympics1968.du_e_smooth` | 224-235 | `StanfordCase.Case.xSmooth` |
| `StanfordOlympics1968.x` | 237-248 | `StanfordCase.Case.column` |
| `StanfordOlympics1968.u_e` | 250-261 | `StanfordCase.Case.column` |
| `StanfordOlympics1968.du_e` | 263-274 | `StanfordCase.Case.column` |
| `StanfordOlympics1968.delta_d` | 276-287 | `StanfordCase.Case.column` |
| `StanfordOlympics1968.delta_m` | 289-300 | `StanfordCase.Case.column` |
| `StanfordOlympics1968.delta_k` | 302-313 | `StanfordCase.Case.column` |
| `StanfordOlympics1968.delta_c` | 315-326 | `StanfordCase.Case.column` |
| `StanfordOlympics1968.shape_d` | 328-339 | `StanfordCase.Case.column` |
| `StanfordOlympics1968.shape_k` | 341-352 | `StanfordCase.Case.column` |
| `StanfordOlympics1968.shape_eq` | 354-365 | `StanfordCase.Case.column` |
| `StanfordOlympics1968.c_f` | 367-378 | `StanfordCase.Case.column` |
| `StanfordOlympics1968.c_f_lt` | 380-391 | `StanfordCase.Case.column` |
| `StanfordOlympics1968.c_f_exp` | 393-404 | `StanfordCase.Case.column` |
| `StanfordOlympics1968.beta_eq` | 406-417 | `StanfordCase.Case.column` |
| `StanfordOlympics1968.u_star` | 419-430 | `StanfordCase.Case.column` |
| `StanfordOlympics1968.nu` | 432-443 | `StanfordCase.Case.column` |
| `StanfordOlympics1968.re_delta_d` | 445-457 | `StanfordCase.Case.column` |
| `StanfordOlympics1968.re_delta_m` | 459-471 | `StanfordCase.Case.column` |
| `StanfordOlympics1968.y` | 473-487 | `StanfordCase.Case.station` |
| `StanfordOlympics1968.y_plus` | 489-503 | `StanfordCase.Case.station` |
| `StanfordOlympics1968.y_c` | 505-519 | `StanfordCase.Case.station` |
| `StanfordOlympics1968.u` | 521-535 | `StanfordCase.Case.station` |
| `StanfordOlympics1968.u_plus` | 537-551 | `StanfordCase.Case.station` |
| `StanfordOlympics1968.u_defect` | 553-567 | `StanfordCase.Case.station` |
| `StanfordOlympics1968._get_case_data` | 570-611 | `StanfordCase.marked`, `StanfordCase.chunkIdx`, `StanfordCase.rowsOf`, `StanfordCase.blocks`, `StanfordCase.caseBlocks` … |

## ibl/reference/_stanford_1968_station.py

| function | lines | model |
|---|---|---|
| `StanfordOlympics1968StationData.__init__` | 38-83 | `Stanford.Station`, `Stanford.Station.blank`, `Stanford.Station.mk'` |
| `StanfordOlympics1968StationData.x` | 86-91 | record field |
| `StanfordOlympics1968StationData.x (setter)` | 94-95 | `Stanford.Station.set` |
| `StanfordOlympics1968StationData.u_e` | 98-104 | `Stanford.Station.set` |
| `StanfordOlympics1968StationData.u_e (setter)` | 107-110 | `Stanford.Station.set` |
| `StanfordOlympics1968StationData.du_e` | 113-118 | `Stanford.Station.set` |
| `StanfordOlympics1968StationData.du_e (setter)` | 121-122 | `Stanford.Station.set` |
| `StanfordOlympics1968StationData.delta_d` | 125-131 | `Stanford.Station.set` |
| `StanfordOlympics1968StationData.delta_d (setter)` | 134-137 | `Stanford.Station.set` |
| `StanfordOlympics1968StationData.delta_m` | 140-146 | `Stanford.Station.set` |
| `StanfordOlympics1968StationData.delta_m (setter)` | 149-152 | `Stanford.Station.set` |
| `StanfordOlympics1968StationData.delta_k` | 155-161 | `Stanford.Station.set` |
| `StanfordOlympics1968StationData.delta_k (setter)` | 164-167 | `Stanford.Station.set` |
| `StanfordOlympics1968StationData.delta_c` | 170-176 | `Stanford.Station.set` |
| `StanfordOlympics1968StationData.delta_c (setter)` | 179-182 | `Stanford.Station.set` |
| `StanfordOlympics1968StationData.shape_d` | 185-191 | `Stanford.Station.set` |
| `StanfordOlympics1968StationData.shape_d (setter)` | 194-197 | `Stanford.Station.set` |
| `StanfordOlympics1968StationData.shape_k` | 200-206 | `Stanford.Station.set` |
| `StanfordOlympics1968StationData.shape_k (setter)` | 209-212 | `Stanford.Station.set` |
| `StanfordOlympics1968StationData.shape_eq` | 215-221 | `Stanford.Station.set` |
| `StanfordOlympics1968StationData.shape_eq (setter)` | 224-228 | `Stanford.Station.set` |
| `StanfordOlympics1968StationData.c_f` | 231-236 | `Stanford.Station.set` |
| `StanfordOlympics1968StationData.c_f (setter)` | 239-240 | `Stanford.Station.set` |
| `StanfordOlympics1968StationData.c_f_lt` | 243-248 | `Stanford.Station.set` |
| `StanfordOlympics1968StationData.c_f_lt (setter)` | 251-252 | `Stanford.Station.set` |
| `StanfordOlympics1968StationData.c_f_exp` | 255-260 | `Stanford.Station.set` |
| `StanfordOlympics1968StationData.c_f_exp (setter)` | 263-264 | `Stanford.Station.set` |
| `StanfordOlympics1968StationData.beta_eq` | 267-272 | `Stanford.Station.set` |
| `StanfordOlympics1968StationData.beta_eq (setter)` | 275-276 | `Stanford.Station.set` |
| `StanfordOlympics1968StationData.u_star` | 279-285 | `Stanford.Station.set` |
| `StanfordOlympics1968StationData.u_star (setter)` | 288-291 | `Stanford.Station.set` |
| `StanfordOlympics1968StationData.nu` | 294-300 | `Stanford.Station.set` |
| `StanfordOlympics1968StationData.nu (setter)` | 303-306 | `Stanford.Station.set` |
| `StanfordOlympics1968StationData.re_delta_d` | 309-315 | `Stanford.Station.set` |
| `StanfordOlympics1968StationData.re_delta_d (setter)` | 318-322 | `Stanford.Station.set` |
| `StanfordOlympics1968StationData.re_delta_m` | 325-331 | `Stanford.Station.set` |
| `StanfordOlympics1968StationData.re_delta_m (setter)` | 334-338 | `Stanford.Station.set` |
| `StanfordOlympics1968StationData.y` | 341-347 | record field |
| `StanfordOlympics1968StationData.y (setter)` | 350-353 | `Stanford.Station.setArr` |
| `StanfordOlympics1968StationData.y_plus` | 356-362 | `Stanford.Station.setArr` |
| `StanfordOlympics1968StationData.y_plus (setter)` | 365-368 | `Stanford.Station.setArr` |
| `StanfordOlympics1968StationData.y_c` | 371-377 | `Stanford.Station.setArr` |
| `StanfordOlympics1968StationData.y_c (setter)` | 380-383 | `Stanford.Station.setArr` |
| `StanfordOlympics1968StationData.u` | 386-392 | `Stanford.Station.setArr` |
| `StanfordOlympics1968StationData.u (setter)` | 395-398 | `Stanford.Station.setArr` |
| `StanfordOlympics1968StationData.u_plus` | 401-407 | `Stanford.Station.setArr` |
| `StanfordOlympics1968StationData.u_plus (setter)` | 410-413 | `Stanford.Station.setArr` |
| `StanfordOlympics1968StationData.u_defect` | 416-422 | `Stanford.Station.setArr` |
| `StanfordOlympics1968StationData.u_defect (setter)` | 425-428 | `Stanford.Station.setArr` |
| `StanfordOlympics1968StationData.reset` | 430-453 | `Stanford.Station.reset` |
| `StanfordOlympics1968StationData.sample_count` | 455-464 | `Stanford.Station.sampleCount` |
| `StanfordOlympics1968StationData._reset_summary_data` | 466-527 | `Stanford.Summary`, `Stanford.Station.derived`, `Stanford.Summary.ofRow`, `Stanford.Summary.toSI`, `Stanford.Summary.assignments` … |
| `StanfordOlympics1968StationData._reset_station_summary` | 529-652 | `Stanford.Detail`, `Stanford.Station.derived`, `Stanford.Detail.ofRow`, `Stanford.Detail.assignments`, `Stanford.Detail.toSI` … |
| `StanfordOlympics1968StationData._reset_station_data` | 654-721 | `Stanford.Sample`, `Stanford.Sample.toSI`, `Stanford.Sample.ofRow`, `Stanford.Station.checkSample`, `Stanford.Station.readSamples` … |
| `StanfordOlympics1968SmoothVel.__init__` | 736-741 | `Stanford.Smooth`, `Stanford.Smooth.mk'` |
| `StanfordOlympics1968SmoothVel.x` | 744-746 | record field |
| `StanfordOlympics1968SmoothVel.u_e` | 749-751 | record field |
| `StanfordOlympics1968SmoothVel.du_e` | 754-756 | record field |
| `StanfordOlympics1968SmoothVel.size` | 758-767 | `Stanford.Smooth.size` |
| `StanfordOlympics1968SmoothVel.reset` | 769-807 | `Stanford.Smooth.read`, `Stanford.Smooth.reset` |

## ibl/reference/_xfoil_data.py

| function | lines | model |
|---|---|---|
| `XFoilAirfoilData.__init__` | 28-50 | `XFoil.Pt.infs`, `XFoil.Pt.mk'`, `XFoil.Pt` |
| `XFoilAirfoilData.s` | 53-59 | record field |
| `XFoilAirfoilData.s (setter)` | 62-66 | `XFoil.Pt.set` |
| `XFoilAirfoilData.x` | 69-74 | record field |
| `XFoilAirfoilData.x (setter)` | 77-78 | `XFoil.Pt.set` |
| `XFoilAirfoilData.y` | 81-86 | record field |
| `XFoilAirfoilData.y (setter)` | 89-90 | `XFoil.Pt.set` |
| `XFoilAirfoilData.u_e_rel` | 93-98 | record field |
| `XFoilAirfoilData.u_e_rel (setter)` | 101-102 | `XFoil.Pt.set` |
| `XFoilAirfoilData.delta_d` | 105-111 | record field |
| `XFoilAirfoilData.delta_d (setter)` | 114-117 | `XFoil.Pt.set` |
| `XFoilAirfoilData.delta_m` | 120-126 | record field |
| `XFoilAirfoilData.delta_m (setter)` | 129-132 | `XFoil.Pt.set` |
| `XFoilAirfoilData.c_f` | 135-141 | record field |
| `XFoilAirfoilData.c_f (setter)` | 144-147 | `XFoil.Pt.set` |
| `XFoilAirfoilData.shape_d` | 150-156 | record field |
| `XFoilAirfoilData.shape_d (setter)` | 159-162 | `XFoil.Pt.set` |
| `XFoilAirfoilData.shape_k` | 165-171 | record field |
| `XFoilAirfoilData.shape_k (setter)` | 174-177 | `XFoil.Pt.set` |
| `XFoilAirfoilData.mass_defect` | 180-185 | record field |
| `XFoilAirfoilData.mass_defect (setter)` | 188-189 | `XFoil.Pt.set` |
| `XFoilAirfoilData.mom_defect` | 192-197 | record field |
| `XFoilAirfoilData.mom_defect (setter)` | 200-201 | `XFoil.Pt.set` |
| `XFoilAirfoilData.ke_defect` | 204-209 | record field |
| `XFoilAirfoilData.ke_defect (setter)` | 212-213 | `XFoil.Pt.set` |
| `XFoilAirfoilData.reset` | 215-264 | `XFoil.Pt.ofRow`, `XFoil.Pt.assignments`, `XFoil.Pt.infs`, `XFoil.Pt.reset` |
| `XFoilWakeData.__init__` | 274-291 | `XFoil.Wake.mk'`, `XFoil.Wake` |
| `XFoilWakeData.s` | 294-300 | record field |
| `XFoilWakeData.s (setter)` | 303-307 | `XFoil.Wake.set` |
| `XFoilWakeData.x` | 310-315 | record field |
| `XFoilWakeData.x (setter)` | 318-319 | `XFoil.Wake.set` |
| `XFoilWakeData.y` | 322-327 | record field |
| `XFoilWakeData.y (setter)` | 330-331 | `XFoil.Wake.set` |
| `XFoilWakeData.u_e_rel` | 334-339 | record field |
| `XFoilWakeData.u_e_rel (setter)` | 342-343 | `XFoil.Wake.set` |
| `XFoilWakeData.delta_d` | 346-352 | record field |
| `XFoilWakeData.delta_d (setter)` | 355-358 | `XFoil.Wake.set` |
| `XFoilWakeData.delta_m` | 361-367 | record field |
| `XFoilWakeData.delta_m (setter)` | 370-373 | `XFoil.Wake.set` |
| `XFoilWakeData.shape_d` | 376-382 | record field |
| `XFoilWakeData.shape_d (setter)` | 385-388 | `XFoil.Wake.set` |
| `XFoilWakeData.reset` | 390-428 | `XFoil.Wake.assignments`, `XFoil.Wake.ofRow`, `XFoil.Wake.reset` |

## ibl/reference/_xfoil_reader.py

| function | lines | model |
|---|---|---|
| `XFoilReader.__init__` | 34-54 | `XFoil.Reader.empty`, `XFoil.Reader`, `XFoil.mkReader` |
| `XFoilReader.name` | 57-61 | record field |
| `XFoilReader.name (setter)` | 64-65 | `XFoil.Reader.step` |
| `XFoilReader.alpha` | 68-72 | `XFoil.Reader.step` |
| `XFoilReader.alpha (setter)` | 75-76 | `XFoil.Reader.step` |
| `XFoilReader.u_ref` | 79-84 | `XFoil.dumpData`, `XFoil.Reader.step` |
| `XFoilReader.u_ref (setter)` | 87-90 | `XFoil.Reader.step` |
| `XFoilReader.c` | 93-98 | `XFoil.Reader.step` |
| `XFoilReader.c (setter)` | 101-104 | `XFoil.Reader.step` |
| `XFoilReader.reynolds` | 107-113 | `XFoil.Reader.step` |
| `XFoilReader.reynolds (setter)` | 116-119 | `XFoil.Reader.step` |
| `XFoilReader.n_trans` | 122-127 | `XFoil.Reader.step` |
| `XFoilReader.n_trans (setter)` | 130-133 | `XFoil.Reader.step` |
| `XFoilReader.x_trans_upper` | 136-140 | `XFoil.Reader.step` |
| `XFoilReader.x_trans_upper (setter)` | 143-144 | `XFoil.Reader.step` |
| `XFoilReader.x_trans_lower` | 147-151 | `XFoil.Reader.step` |
| `XFoilReader.x_trans_lower (setter)` | 154-155 | `XFoil.Reader.step` |
| `XFoilReader.filename` | 158-162 | record field |
| `XFoilReader.filename (setter)` | 165-227 | `XFoil.adjustWake`, `XFoil.Pt.flip`, `XFoil.adjust`, `XFoil.Reader.readWake`, `XFoil.Reader.readUpper` … |
| `XFoilReader.upper_count` | 229-238 | `XFoil.Reader.upperCount` |
| `XFoilReader.lower_count` | 240-249 | `XFoil.Reader.upperCount` |
| `XFoilReader.wake_count` | 251-260 | `XFoil.Reader.upperCount` |
| `XFoilReader.upper` | 262-276 | `XFoil.Reader.step` |
| `XFoilReader.lower` | 278-292 | `XFoil.Reader.step` |
| `XFoilReader.wake` | 294-308 | `XFoil.Reader.step` |
| `XFoilReader.s_upper` | 310-323 | `XFoil.Reader.surface`, `XFoil.Reader.array` |
| `XFoilReader.s_lower` | 325-338 | `XFoil.Reader.surface`, `XFoil.Reader.array` |
| `XFoilReader.s_wake` | 340-352 | `XFoil.Reader.surface`, `XFoil.Reader.array` |
| `XFoilReader.x_upper` | 354-366 | `XFoil.Reader.surface`, `XFoil.Reader.array` |
| `XFoilReader.x_lower` | 368-380 | `XFoil.Reader.surface`, `XFoil.Reader.array` |
| `XFoilReader.x_wake` | 382-394 | `XFoil.Reader.surface`, `XFoil.Reader.array` |
| `XFoilReader.y_upper` | 396-408 | `XFoil.Reader.surface`, `XFoil.Reader.array` |
| `XFoilReader.y_lower` | 410-422 | `XFoil.Reader.surface`, `XFoil.Reader.array` |
| `XFoilReader.y_wake` | 424-436 | `XFoil.Reader.surface`, `XFoil.Reader.array` |
| `XFoilReader.u_e_upper` | 438-450 | `XFoil.Reader.surface`, `XFoil.Reader.array` |
| `XFoilReader.u_e_lower` | 452-464 | `XFoil.Reader.surface`, `XFoil.Reader.array` |
| `XFoilReader.u_e_wake` | 466-478 | `XFoil.Reader.surface`, `XFoil.Reader.array` |
| `XFoilReader.delta_d_upper` | 480-492 | `XFoil.Reader.surface`, `XFoil.Reader.array` |
| `XFoilReader.delta_d_lower` | 494-506 | `XFoil.Reader.surface`, `XFoil.Reader.array` |
| `XFoilReader.delta_d_wake` | 508-520 | `XFoil.Reader.surface`, `XFoil.Reader.array` |
| `XFoilReader.delta_m_upper` | 522-534 | `XFoil.Reader.surface`, `XFoil.Reader.array` |
| `XFoilReader.delta_m_lower` | 536-548 | `XFoil.Reader.surface`, `XFoil.Reader.array` |
| `XFoilReader.delta_m_wake` | 550-562 | `XFoil.Reader.surface`, `XFoil.Reader.array` |
| `XFoilReader.delta_k_upper` | 564-576 | `XFoil.Reader.surface`, `XFoil.Reader.array` |
| `XFoilReader.delta_k_lower` | 578-590 | `XFoil.Reader.surface`, `XFoil.Reader.array` |
| `XFoilReader.shape_d_upper` | 592-604 | `XFoil.Reader.surface`, `XFoil.Reader.array` |
| `XFoilReader.shape_d_lower` | 606-618 | `XFoil.Reader.surface`, `XFoil.Reader.array` |
| `XFoilReader.shape_d_wake` | 620-632 | `XFoil.Reader.surface`, `XFoil.Reader.array` |
| `XFoilReader.shape_k_upper` | 634-646 | `XFoil.Reader.surface`, `XFoil.Reader.array` |
| `XFoilReader.shape_k_lower` | 648-660 | `XFoil.Reader.surface`, `XFoil.Reader.array` |
| `XFoilReader.c_f_upper` | 662-674 | `XFoil.Reader.surface`, `XFoil.Reader.array` |
| `XFoilReader.c_f_lower` | 676-688 | `XFoil.Reader.surface`, `XFoil.Reader.array` |
| `XFoilReader.mass_defect_upper` | 690-702 | `XFoil.Reader.surface`, `XFoil.Reader.array` |
| `XFoilReader.mass_defect_lower` | 704-716 | `XFoil.Reader.surface`, `XFoil.Reader.array` |
| `XFoilReader.mom_defect_upper` | 718-730 | `XFoil.Reader.surface`, `XFoil.Reader.array` |
| `XFoilReader.mom_defect_lower` | 732-744 | `XFoil.Reader.surface`, `XFoil.Reader.array` |
| `XFoilReader.ke_defect_upper` | 746-758 | `XFoil.Reader.surface`, `XFoil.Reader.array` |
| `XFoilReader.ke_defect_lower` | 760-772 | `XFoil.Reader.surface`, `XFoil.Reader.array` |
| `XFoilReader._get_dump_data` | 774-814 | `XFoil.dumpData` |
| `XFoilReader._interpolate_aifoil_data` | 817-834 | `XFoil.interpolate` |

## ibl/skin_friction.py

| function | lines | model |
|---|---|---|
| `ludwieg_tillman` | 14-36 | `SkinFriction.ludwiegTillman` |
| `felsch` | 39-63 | `SkinFriction.npClip`, `SkinFriction.felsch` |
| `white` | 66-89 | `SkinFriction.white` |

## ibl/thwaites_method.py

| function | lines | model |
|---|---|---|
| `ThwaitesMethod.__init__` | 57-65 | `Method.Obj.mkThwaites` |
| `ThwaitesMethod.initial_delta_m` | 68-73 | `Method.Obj.initialDeltaM` |
| `ThwaitesMethod.initial_delta_m (setter)` | 76-79 | `InitialCondition.assignDelM`, `Method.Obj.setInitialDeltaM` |
| `ThwaitesMethod.set_data_fits` | 81-162 | `Fits.ShapeP`, `Fits.shapePAt`, `ThwaitesArray.shapePArr`, `Velocity.fd1Comb`, `Method.FitsArg` … |
| `ThwaitesMethod.v_e` | 165-192 | `Method.Obj.vEThwaites`, `ThwaitesArray.vEArr` |
| `ThwaitesMethod.delta_d` | 195-209 | `Method.Obj.deltaD`, `ThwaitesArray.deltaDArr` |
| `ThwaitesMethod.delta_m` | 212-229 | `Method.Obj.state`, `ThwaitesArray.solArr`, `Method.Obj.deltaM`, `ThwaitesArray.deltaMArr` |
| `ThwaitesMethod.delta_k` | 232-246 | `Method.Obj.deltaK`, `ThwaitesArray.deltaKArr` |
| `ThwaitesMethod.shape_d` | 249-267 | `Method.Obj.shapeD`, `ThwaitesArray.shapeDArr` |
| `ThwaitesMethod.shape_k` | 270-284 | `Method.Obj.shapeK`, `ThwaitesArray.shapeKArr` |
| `ThwaitesMethod.tau_w` | 287-307 | `Method.Obj.tauWThwaites`, `ThwaitesArray.tauWArr` |
| `ThwaitesMethod.dissipation` | 310-326 | `Method.Obj.dissipation`, `ThwaitesArray.dissipationArr` |
| `ThwaitesMethod._ode_setup` | 329-340 | `Method.Obj.startVector` |
| `ThwaitesMethod._ode_impl` | 343-361 | `Method.Obj.thwaitesRhs`, `ThwaitesArray.rhsArr` |
| `ThwaitesMethod._calc_lambda` | 363-380 | `ThwaitesArray.lambdaArr`, `Method.Obj.calcLambda` |
| `ThwaitesMethod._calc_f` | 383-404 | abstract |
| `ThwaitesMethodLinear._calc_f` | 426-452 | `Method.Obj.calcF`, `ThwaitesArray.calcFArr` |
| `ThwaitesMethodNonlinear._calc_f` | 476-500 | `Method.Obj.calcF`, `ThwaitesArray.calcFArr` |
| `_ThwaitesFunctions.__init__` | 506-513 | `Fits.Fits` |
| `_ThwaitesFunctions.range` | 515-517 | `Fits.Fits` |
| `_ThwaitesFunctions.shape` | 519-521 | `Fits.shapeAt`, `FitsArray.shapeArr`, `Fits.Fits` |
| `_ThwaitesFunctions.shape_p` | 523-525 | `Fits.shapePAt`, `ThwaitesArray.shapePArr`, `Fits.Fits` |
| `_ThwaitesFunctions.shear` | 527-529 | `Fits.shearAt`, `FitsArray.shearArr`, `Fits.Fits` |
| `_ThwaitesFunctions.f` | 531-533 | `Fits.fAt`, `ThwaitesArray.fArr`, `Fits.Fits` |
| `_ThwaitesFunctions.get_name` | 535-537 | `KillEvent.Obj.fitsName` |
| `_ThwaitesFunctions._check_range` | 539-551 | `Fits.checkRange`, `FitsArray.checkRangeArr` |
| `_ThwaitesFunctionsWhite.__init__` | 557-569 | `Fits.white` |
| `_ThwaitesFunctionsWhite.__init__.shear` | 558-559 | `Fits.white` |
| `_ThwaitesFunctionsWhite.__init__.shape` | 561-563 | `Fits.white` |
| `_ThwaitesFunctionsWhite.__init__.shape_p` | 565-567 | `Fits.white` |
| `_ThwaitesFunctionsCebeciBradshaw.__init__` | 575-597 | `Fits.cebeciBradshaw` |
| `_ThwaitesFunctionsCebeciBradshaw.__init__.shear` | 576-580 | `Fits.cebeciBradshaw` |
| `_ThwaitesFunctionsCebeciBradshaw.__init__.shape` | 582-587 | `Fits.cebeciBradshaw` |
| `_ThwaitesFunctionsCebeciBradshaw.__init__.shape_p` | 589-594 | `Fits.cebeciBradshaw` |
| `_ThwaitesFunctionsDrela.__init__` | 603-613 | `Fits.drela` |
| `_ThwaitesFunctionsDrela.__init__.shear` | 604-605 | `Fits.drela` |
| `_ThwaitesFunctionsDrela.__init__.shape` | 607-608 | `Fits.drela` |
| `_ThwaitesFunctionsDrela.__init__.shape_p` | 610-611 | `Fits.drela` |
| `_ThwaitesFunctionsSpline.__init__` | 668-675 | `Fits.spline` |
| `_ThwaitesFunctionsSpline.shear_values` | 678-680 | record field |
| `_ThwaitesFunctionsSpline.shape_values` | 683-685 | record field |
| `_ThwaitesFunctionsSpline.lambda_values` | 688-690 | record field |
| `_ThwaitesFunctionsSpline.f_values` | 693-695 | record field |
| `_ThwaitesSeparationEvent.__init__` | 710-713 | `Method.Event` |
| `_ThwaitesSeparationEvent._call_impl` | 716-735 | `Method.Obj.eventValue`, `Method.Event` |
| `_ThwaitesSeparationEvent.event_info` | 738-739 | `Method.Event.info`, `Method.Event` |
