import Verif.Model.Restart

/-!
# RESTART_PROPERTIES (_properties.py)
-/

namespace FV3.Restart

/-- _properties.py:13-450 `RESTART_PROPERTIES` (dims, restart_name, units; the entries
`description` and `fortran_subname`, which are not used, are left out). -/
def shippedTable : Table :=
  [("accumulated_x_courant_number", ⟨[.z, .y, .x], "cx", ""⟩),
   ("accumulated_x_mass_flux", ⟨[.z, .y, .xI], "mfx", "unknown"⟩),
   ("accumulated_y_courant_number", ⟨[.z, .y, .x], "cy", "unknown"⟩),
   ("accumulated_y_mass_flux", ⟨[.z, .yI, .x], "mfy", "unknown"⟩),
   ("air_temperature", ⟨[.z, .y, .x], "T", "degK"⟩),
   ("air_temperature_after_physics", ⟨[.z, .y, .x], "gt0", "K"⟩),
   ("air_temperature_at_2m", ⟨[.y, .x], "t2m", "degK"⟩),
   ("area_of_grid_cell", ⟨[.y, .x], "area", "m^2"⟩),
   ("atmosphere_hybrid_a_coordinate", ⟨[.zI], "ak", "Pa"⟩),
   ("atmosphere_hybrid_b_coordinate", ⟨[.zI], "bk", ""⟩),
   ("canopy_water", ⟨[.y, .x], "canopy", "unknown"⟩),
   ("clear_sky_downward_longwave_flux_at_surface", ⟨[.y, .x], "sfcflw", "W/m^2"⟩),
   ("clear_sky_downward_shortwave_flux_at_surface", ⟨[.y, .x], "sfcfsw", "W/m^2"⟩),
   ("clear_sky_upward_longwave_flux_at_surface", ⟨[.y, .x], "sfcflw", "W/m^2"⟩),
   ("clear_sky_upward_longwave_flux_at_top_of_atmosphere", ⟨[.y, .x], "topflw", "W/m^2"⟩),
   ("clear_sky_upward_shortwave_flux_at_surface", ⟨[.y, .x], "sfcfsw", "W/m^2"⟩),
   ("clear_sky_upward_shortwave_flux_at_top_of_atmosphere", ⟨[.y, .x], "topfsw", "W/m^2"⟩),
   ("convective_cloud_bottom_pressure", ⟨[.y, .x], "cvb", "Pa"⟩),
   ("convective_cloud_fraction", ⟨[.y, .x], "cv", ""⟩),
   ("convective_cloud_top_pressure", ⟨[.y, .x], "cvt", "Pa"⟩),
   ("deep_soil_temperature", ⟨[.y, .x], "tg3", "degK"⟩),
   ("dissipation_estimate_from_heat_source", ⟨[.z, .y, .x], "diss_est", "unknown"⟩),
   ("eastward_wind", ⟨[.z, .y, .x], "ua", "m/s"⟩),
   ("eastward_wind_after_physics", ⟨[.z, .y, .x], "gu0", "m/s"⟩),
   ("eastward_wind_at_surface", ⟨[.y, .x], "u_srf", "m/s"⟩),
   ("fh_parameter", ⟨[.y, .x], "ffhh", "unknown"⟩),
   ("fm_at_10m", ⟨[.y, .x], "f10m", "unknown"⟩),
   ("fm_parameter", ⟨[.y, .x], "ffmm", "unknown"⟩),
   ("fractional_coverage_with_strong_cosz_dependency", ⟨[.y, .x], "facsf", ""⟩),
   ("fractional_coverage_with_weak_cosz_dependency", ⟨[.y, .x], "facwf", ""⟩),
   ("friction_velocity", ⟨[.y, .x], "uustar", "m/s"⟩),
   ("ice_fraction_over_open_water", ⟨[.y, .x], "fice", ""⟩),
   ("interface_pressure", ⟨[.y, .zI, .x], "pe", "Pa"⟩),
   ("interface_pressure_raised_to_power_of_kappa", ⟨[.zI, .y, .x], "pk", "unknown"⟩),
   ("land_sea_mask", ⟨[.y, .x], "slmsk", ""⟩),
   ("latent_heat_flux", ⟨[.y, .x], "dqsfci", "W/m^2"⟩),
   ("latitude", ⟨[.y, .x], "xlat", "radians"⟩),
   ("layer_mean_pressure_raised_to_power_of_kappa", ⟨[.z, .y, .x], "pkz", "unknown"⟩),
   ("liquid_soil_moisture", ⟨[.zSoil, .y, .x], "slc", "unknown"⟩),
   ("logarithm_of_interface_pressure", ⟨[.y, .zI, .x], "peln", "ln(Pa)"⟩),
   ("longitude", ⟨[.y, .x], "xlon", "radians"⟩),
   ("maximum_fractional_coverage_of_green_vegetation", ⟨[.y, .x], "shdmax", ""⟩),
   ("maximum_snow_albedo_in_fraction", ⟨[.y, .x], "snoalb", ""⟩),
   ("mean_cos_zenith_angle", ⟨[.y, .x], "coszen", ""⟩),
   ("mean_near_infrared_albedo_with_strong_cosz_dependency", ⟨[.y, .x], "alnsf", ""⟩),
   ("mean_near_infrared_albedo_with_weak_cosz_dependency", ⟨[.y, .x], "alnwf", ""⟩),
   ("mean_visible_albedo_with_strong_cosz_dependency", ⟨[.y, .x], "alvsf", ""⟩),
   ("mean_visible_albedo_with_weak_cosz_dependency", ⟨[.y, .x], "alvwf", ""⟩),
   ("minimum_fractional_coverage_of_green_vegetation", ⟨[.y, .x], "shdmin", ""⟩),
   ("northward_wind", ⟨[.z, .y, .x], "va", "m/s"⟩),
   ("northward_wind_after_physics", ⟨[.z, .y, .x], "gv0", "m/s"⟩),
   ("northward_wind_at_surface", ⟨[.y, .x], "v_srf", "m/s"⟩),
   ("pressure_thickness_of_atmospheric_layer", ⟨[.z, .y, .x], "delp", "Pa"⟩),
   ("sea_ice_thickness", ⟨[.y, .x], "hice", "unknown"⟩),
   ("sensible_heat_flux", ⟨[.y, .x], "dtsfci", "W/m^2"⟩),
   ("snow_cover_in_fraction", ⟨[.y, .x], "sncovr", ""⟩),
   ("snow_depth_water_equivalent", ⟨[.y, .x], "snwdph", "mm"⟩),
   ("snow_rain_flag", ⟨[.y, .x], "srflag", ""⟩),
   ("soil_temperature", ⟨[.zSoil, .y, .x], "stc", "degK"⟩),
   ("soil_type", ⟨[.y, .x], "stype", ""⟩),
   ("specific_humidity_at_2m", ⟨[.y, .x], "q2m", "kg/kg"⟩),
   ("surface_geopotential", ⟨[.y, .x], "phis", "m^2 s^-2"⟩),
   ("surface_pressure", ⟨[.y, .x], "ps", "Pa"⟩),
   ("surface_roughness", ⟨[.y, .x], "zorl", "cm"⟩),
   ("surface_slope_type", ⟨[.y, .x], "slope", ""⟩),
   ("surface_temperature", ⟨[.y, .x], "tsea", "degK"⟩),
   ("surface_temperature_over_ice_fraction", ⟨[.y, .x], "tisfc", "degK"⟩),
   ("total_condensate_mixing_ratio", ⟨[.z, .y, .x], "q_con", "kg/kg"⟩),
   ("total_precipitation", ⟨[.y, .x], "tprcp", "m"⟩),
   ("total_sky_downward_longwave_flux_at_surface", ⟨[.y, .x], "sfcflw", "W/m^2"⟩),
   ("total_sky_downward_shortwave_flux_at_surface", ⟨[.y, .x], "sfcfsw", "W/m^2"⟩),
   ("total_sky_downward_shortwave_flux_at_top_of_atmosphere", ⟨[.y, .x], "topfsw", "W/m^2"⟩),
   ("total_sky_upward_longwave_flux_at_surface", ⟨[.y, .x], "sfcflw", "W/m^2"⟩),
   ("total_sky_upward_longwave_flux_at_top_of_atmosphere", ⟨[.y, .x], "topflw", "W/m^2"⟩),
   ("total_sky_upward_shortwave_flux_at_surface", ⟨[.y, .x], "sfcfsw", "W/m^2"⟩),
   ("total_sky_upward_shortwave_flux_at_top_of_atmosphere", ⟨[.y, .x], "topfsw", "W/m^2"⟩),
   ("total_soil_moisture", ⟨[.zSoil, .y, .x], "smc", "unknown"⟩),
   ("vegetation_fraction", ⟨[.y, .x], "vfrac", ""⟩),
   ("vegetation_type", ⟨[.y, .x], "vtype", ""⟩),
   ("vertical_pressure_velocity", ⟨[.z, .y, .x], "omga", "Pa/s"⟩),
   ("vertical_thickness_of_atmospheric_layer", ⟨[.z, .y, .x], "DZ", "m"⟩),
   ("vertical_wind", ⟨[.z, .y, .x], "W", "m/s"⟩),
   ("water_equivalent_of_accumulated_snow_depth", ⟨[.y, .x], "sheleg", "kg/m^2"⟩),
   ("x_wind", ⟨[.z, .yI, .x], "u", "m/s"⟩),
   ("x_wind_on_c_grid", ⟨[.z, .y, .xI], "uc", "m/s"⟩),
   ("y_wind", ⟨[.z, .y, .xI], "v", "m/s"⟩),
   ("y_wind_on_c_grid", ⟨[.z, .yI, .x], "vc", "m/s"⟩)]

end FV3.Restart
