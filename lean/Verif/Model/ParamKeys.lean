import Verif.Common

/-!
# Names of the parameters (src/Common/Parameters.cpp:166-540, `SetDefaultValues`)

In the order of `std::map`.
-/

set_option autoImplicit false

namespace Gandalf.Params

/-- keys of `intparams` -/
def intKeys : List (List Char) :=
  [
    "DiscIcPlanet", "Ndust", "Nhydro", "Nhydromax", "Nlattice1[0]", "Nlattice1[1]", "Nlattice1[2]", "Nlattice2[0]",
    "Nlattice2[1]", "Nlattice2[2]", "Nleafmax", "Nlevels", "Npec", "Nraditerations", "Nradlevels", "Nreg",
    "Nsinkfixed", "Nstar", "Nstarmax", "Nstepsmax", "ambient_heating", "binary_stats", "com_frame",
    "conservative_sph_star_gravity", "create_sinks", "cut_box", "dimensionless", "disc_heating", "ewald",
    "extra_sink_output", "field_type", "fixed_sink_mass", "gr_bhewaldseriesn", "gridsize", "hydro_forces",
    "ilFinePix", "ilNNS", "ilNPhi", "ilNR", "ilNTheta", "in", "kgrav", "level_diff_max", "litesnap",
    "lombardi_method", "nEwaldGrid", "nbody_single_timestep", "nbody_softening", "ndiagstep", "ndim", "noutputstep",
    "nradstep", "nrestartstep", "nside", "nsystembuildstep", "ntreebuildstep", "ntreestockstep", "on_the_spot",
    "perturbers", "pruning_level_max", "pruning_level_min", "rad_fb", "randseed", "regularise_particle_ics",
    "regularise_smooth_density", "self_gravity", "sink_heating", "sink_particles", "smooth_accretion", "smooth_ic",
    "sph_single_timestep", "static_particles", "sub_systems", "tabulated_kernel", "use_fixed_spacing",
    "zero_mass_flux"].map String.toList

/-- keys of `floatparams` -/
def floatKeys : List (List Char) :=
  [
    "DiscIcHr", "DiscIcMass", "DiscIcP", "DiscIcPlanetAccretionRadiusHill", "DiscIcPlanetEccen", "DiscIcPlanetIncl",
    "DiscIcPlanetMass", "DiscIcPlanetRadius", "DiscIcQ", "DiscIcRin", "DiscIcRout", "DiscIcStarMass", "DustGasRatio",
    "EFratio", "Kpoly", "Lfilament", "NLyC", "Ndotmin", "Nphotonratio", "Rfilament", "a_midplane", "abin", "abin2",
    "accel_mult", "alpha_reg", "alpha_ss", "alpha_turb", "alpha_visc", "alpha_visc_min", "amp", "angvel", "arecomb",
    "asound", "avert", "beta_visc", "boxmax[0]", "boxmax[1]", "boxmax[2]", "boxmin[0]", "boxmin[1]", "boxmin[2]",
    "bulk_visc", "cdmfrac", "courant_mult", "drag_coeff", "dt_litesnap", "dt_python", "dt_snap", "dust_mass_factor",
    "ebin", "ebin2", "energy_mult", "eta_eos", "ewald_mult", "f_acc", "gamma_eos", "gasfrac", "gpefrac", "gpehard",
    "gpesoft", "h_converge", "h_fac", "h_midplane", "ixmax", "ixmin", "kefrac", "lambda", "m1", "m2", "m3", "m4",
    "macerror", "mach", "maxDist", "mcloud", "mplummer", "mplummer_extpot", "mu_bar", "mu_ion", "n0", "nbody_mult",
    "phirot", "power_turb", "press1", "press2", "psirot", "r0", "r_bdwarf", "r_planet", "r_smooth", "r_star",
    "radius", "rayRadRes", "relErr", "rexplosion", "rho_bary", "rho_midplane", "rho_reg", "rho_sink", "rho_star",
    "rhofluid1", "rhofluid2", "rplummer", "rplummer_extpot", "rstar", "shear_visc", "sigma_star", "sink_radius",
    "smooth_accrete_dt", "smooth_accrete_frac", "starfrac", "subsys_mult", "temp0", "temp_ambient", "temp_au",
    "temp_au_secondary", "temp_ion", "temp_q", "temp_q_secondary", "templaw", "tempmin", "tend", "thermal_energy",
    "thetamaxsqd", "thetarot", "tlitesnapfirst", "tmax_wallclock", "tsnapfirst", "v_cyl_infall", "v_rad_infall",
    "vfluid1[0]", "vfluid1[1]", "vfluid1[2]", "vfluid2[0]", "vfluid2[1]", "vfluid2[2]", "visc_mult", "vmachbin",
    "z_d", "zmax"].map String.toList

/-- keys of `stringparams` -/
def stringKeys : List (List Char) :=
  [
    "Binunit", "Boutunit", "Einunit", "Eoutunit", "Jcurinunit", "Jcuroutunit", "Linunit", "Loutunit", "Qinunit",
    "Qoutunit", "acond", "ainunit", "angmominunit", "angmomoutunit", "angvelinunit", "angveloutunit", "aoutunit",
    "avisc", "boundary_lhs[0]", "boundary_lhs[1]", "boundary_lhs[2]", "boundary_rhs[0]", "boundary_rhs[1]",
    "boundary_rhs[2]", "dmdtinunit", "dmdtoutunit", "drag_law", "dudtinunit", "dudtoutunit", "dust_forces",
    "energy_integration", "errControl", "external_potential", "finunit", "foutunit", "gas_eos", "grav_kernel",
    "gravity_mac", "ic", "in_file", "in_file_form", "kappainunit", "kappaoutunit", "kernel", "minunit", "mominunit",
    "momoutunit", "moutunit", "mpi_decomposition", "multipole", "nbody", "neib_search", "out_file_form",
    "particle_distribution", "pressinunit", "pressoutunit", "radiation", "radws_table", "rand_algorithm",
    "rhoinunit", "rhooutunit", "riemann_solver", "rinunit", "routunit", "run_id", "sigmainunit", "sigmaoutunit",
    "sim", "sink_fb", "sink_radius_mode", "slope_limiter", "sph_integration", "sub_system_integration",
    "supernova_feedback", "tempinunit", "tempoutunit", "time_dependent_avisc", "time_step_limiter", "tinunit",
    "toutunit", "uinunit", "uoutunit", "vinunit", "voutunit"].map String.toList

end Gandalf.Params
